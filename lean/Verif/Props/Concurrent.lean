import Verif.Props.Endpoint
import Verif.Props.Dispatch
import Mathlib.Data.List.Forall2
import Mathlib.Data.List.GetD
/-
C95: the handlers of a connection run side by side.
-/
namespace Bromine.Props
open Endpoint Spec

section
variable {CB : Type} {cfg : Config CB}

/-- The handler task of event `e` on connection `c`, which has not returned. -/
def runningFor (cfg : Config CB) (c : Nat) (e : Event) : Endpoint.Task CB :=
  { conn := c, event := e, cb := registered cfg e, phase := .running }

/-- **C95: a handler is started at once.** Whatever the other handlers are doing, however many there are: the receive loop, when it reads, takes the next
event, and if that is not a reply to a request that is still listened for and not an End event, its handler is started in the same step; no other handler is affected, and the
receive loop goes on reading. -/
theorem C95_starts_at_once {s : State CB} (h : Reachable cfg s) {c : Nat} {e : Event} {rest : List Event} (hl : s.loop c = .idle)
    (hi : s.inbox c = e :: rest) (hno : ∀ r q d, s.reqs r = some q → answers cfg q { conn := c, event := e, dest := d } = false)
    (hty : e.eventType ≠ .end) :
    ∃ t s', s.tasks t = none ∧ step cfg s (.take c t) = some s' ∧ s'.tasks t = some (runningFor cfg c e) ∧
      (∀ t', t' ≠ t → s'.tasks t' = s.tasks t') ∧ s'.loop c = .idle ∧ s'.inbox c = rest ∧ s'.out = s.out := by
  obtain ⟨t, ht⟩ := fresh_task h
  have hn : e.referenceId.bind (s.listeners (cfg.group c)) = none := by
    cases hid : e.referenceId with
    | none => rfl
    | some id =>
      cases hl : s.listeners (cfg.group c) id with
      | none => exact hl
      | some r =>
        obtain ⟨q, h1, h2, h3⟩ := (refInv h).listener _ _ _ hl
        have := hno r q .discarded h1
        simp [answers, hid, h2, h3] at this
  have hr : route cfg s c e = .handler (registered cfg e) := by
    simp only [route, hn, hty, if_false, registered]
    cases e.ns with
    | none => rfl
    | some n => simp only [Option.bind_some]; cases cfg.namespaces.get n <;> rfl
  refine ⟨t, { s with inbox := upd s.inbox c rest
                      tasks := upd s.tasks t (some (runningFor cfg c e))
                      processed := s.processed ++ [{ conn := c, event := e, dest := .handler t }] }, ht, ?_, ?_, ?_, hl, ?_, rfl⟩
  · simp [step, hl, hi, hr, spawn, ht, runningFor]
  · simp [upd]
  · intro t' h'; simp [upd, h']
  · simp [upd]

/-- **C95: a handler does not wait for anything else.** In every state - whatever the other handlers, the requests and the receive loops are doing, also when the receive
loop of its connection is blocked, has ended or was stopped - a running handler of the user can return any result, and then its answer can be written; no other handler and no other
connection is affected by that. -/
theorem C95_can_always_return {s : State CB} {t : Nat} {k : Endpoint.Task CB} (hk : s.tasks t = some k) (hp : k.phase = .running)
    (hu : ∃ cb, k.cb = some cb ∧ cfg.isDefaultError cb = false) (res : Except Error Bytes) (id : UInt64) :
    ∃ s' a, run cfg s [.handlerDone t res, .respond t id] = some s' ∧ IsAnswer cfg.fmtDebug k.event res a ∧ a.id = id ∧
      s'.out k.conn = s.out k.conn ++ [{ origin := .final t, event := a }] ∧ (∀ c, c ≠ k.conn → s'.out c = s.out c) ∧
      (∀ t', t' ≠ t → s'.tasks t' = s.tasks t') ∧ s'.loop = s.loop ∧ s'.inbox = s.inbox ∧ s'.reqs = s.reqs ∧ s'.listeners = s.listeners := by
  obtain ⟨cb, hcb, hdef⟩ := hu
  have hres : resultPossible cfg k res = true := by simp [resultPossible, hcb, hdef]
  have h1 : step cfg s (.handlerDone t res) = some { s with tasks := upd s.tasks t (some { k with phase := .responding res }) } := by
    simp only [step, hk, hp, hres]; rfl
  refine ⟨{ s with tasks := upd (upd s.tasks t (some { k with phase := .responding res })) t (some { k with phase := afterResponse res true })
                   out := upd s.out k.conn (s.out k.conn ++ [{ origin := .final t, event := finalEvent cfg k res id }])
                   created := s.created ++ [id] }, finalEvent cfg k res id, ?_, finalEvent_isAnswer _ _ _, finalEvent_id _ _ _, by simp [upd],
    fun c h => by simp [upd, h], fun t' h => by simp [upd, h], rfl, rfl, rfl, rfl⟩
  simp only [run, h1, Option.bind_some]
  simp [step, upd]
  cases res <;> simp [finalEvent]

/-- An event that starts a handler of the user when it is received: it does not refer to an event, is not an End event, and a callback of the user is registered for it. -/
def StartsHandler (cfg : Config CB) (e : Event) : Prop :=
  e.referenceId = none ∧ e.eventType ≠ .end ∧ ∃ cb, registered cfg e = some cb ∧ cfg.isDefaultError cb = false

/-- The events `es` arrive and are taken by the receive loop. -/
theorem start_all {c : Nat} : ∀ (es : List Event) {s : State CB}, Reachable cfg s → s.loop c = .idle → s.inbox c = [] →
    (∀ e ∈ es, StartsHandler cfg e) →
    ∃ (ops : List Endpoint.Op) (s' : State CB) (ts : List Nat), (∀ op ∈ ops, (∃ e ∈ es, op = .arrive c e) ∨ ∃ t, op = .take c t) ∧ run cfg s ops = some s' ∧
      (∀ t k, s.tasks t = some k → s'.tasks t = some k) ∧ s'.out = s.out ∧ ts.length = es.length ∧ ts.Nodup ∧ (∀ t ∈ ts, s.tasks t = none) ∧
      ∀ (i t : Nat) (e : Event), ts[i]? = some t → es[i]? = some e → s'.tasks t = some (runningFor cfg c e)
  | [], s, _, _, _, _ => ⟨[], s, [], by simp, rfl, fun _ _ h => h, rfl, rfl, List.nodup_nil, by simp, by simp⟩
  | e :: es, s, h, hl, hi, hes => by
    have hse := hes e List.mem_cons_self
    have h1 : step cfg s (.arrive c e) = some { s with inbox := upd s.inbox c (s.inbox c ++ [e]), arrived := upd s.arrived c (s.arrived c ++ [e]) } := rfl
    have hr1 : Reachable cfg { s with inbox := upd s.inbox c (s.inbox c ++ [e]), arrived := upd s.arrived c (s.arrived c ++ [e]) } :=
      h.run (ops := [.arrive c e]) (by simp [run, h1])
    obtain ⟨t, s2, ht, hs2, hk, hother, hl2, hi2, ho2⟩ := C95_starts_at_once (c := c) (e := e) (rest := []) hr1 hl (by simp [upd, hi])
      (by intro r q d _; simp [answers, hse.1]) hse.2.1
    obtain ⟨ops, s', ts, hops, hrun, hkeep, ho, hlen, hnd, hnone, hts⟩ := start_all es (Endpoint.Reachable.run hr1 (ops := [.take c t]) (by simp only [run, hs2, Option.bind_some])) hl2 hi2
      (fun x hx => hes x (List.mem_cons_of_mem _ hx))
    refine ⟨.arrive c e :: .take c t :: ops, s', t :: ts, ?_, ?_, ?_, ho.trans ho2, by simp [hlen], ?_, ?_, ?_⟩
    · intro op hop
      rcases List.mem_cons.1 hop with rfl | hop
      · exact .inl ⟨e, List.mem_cons_self, rfl⟩
      rcases List.mem_cons.1 hop with rfl | hop
      · exact .inr ⟨t, rfl⟩
      rcases hops op hop with ⟨x, hx, hx'⟩ | h
      · exact .inl ⟨x, List.mem_cons_of_mem _ hx, hx'⟩
      · exact .inr h
    · simp only [run, h1, Option.bind_some, hs2]
      exact hrun
    · intro t' k hk'
      have hne : t' ≠ t := by rintro rfl; rw [show s.tasks t' = none from ht] at hk'; cases hk'
      exact hkeep t' k ((hother t' hne).trans hk')
    · refine List.nodup_cons.2 ⟨fun hm => ?_, hnd⟩
      have := hnone t hm
      rw [hk] at this
      cases this
    · intro t' hm
      rcases List.mem_cons.1 hm with rfl | hm
      · exact ht
      · have hne : t' ≠ t := by intro heq; rw [← heq, hnone t' hm] at hk; cases hk
        exact (hother t' hne).symm.trans (hnone t' hm)
    · intro i t' e' h1 h2
      cases i with
      | zero => cases h1; cases h2; exact hkeep _ _ hk
      | succ i => exact hts i t' e' h1 h2

/-- Running handlers return and their answers are written, one after the other. -/
theorem answer_all {c : Nat} : ∀ (l : List (Nat × Event × Except Error Bytes × UInt64)) (s : State CB), (l.map (·.1)).Nodup →
    (∀ x ∈ l, StartsHandler cfg x.2.1 ∧ s.tasks x.1 = some (runningFor cfg c x.2.1)) →
    ∃ ops s', (∀ op ∈ ops, (∃ t res, op = .handlerDone t res) ∨ ∃ t id, op = .respond t id) ∧ run cfg s ops = some s' ∧
      (s'.out c).map (·.event) = (s.out c).map (·.event) ++ l.map fun x => finalEvent cfg (runningFor cfg c x.2.1) x.2.2.1 x.2.2.2
  | [], s, _, _ => ⟨[], s, by simp, rfl, by simp⟩
  | (t, e, res, id) :: l, s, hnd, hl => by
    obtain ⟨hse, hk⟩ := hl _ List.mem_cons_self
    obtain ⟨-, -, cb, hcb, hdef⟩ := hse
    have hres : resultPossible cfg (runningFor cfg c e) res = true := by simp [resultPossible, runningFor, hcb, hdef]
    have h1 : step cfg s (.handlerDone t res) = some { s with tasks := upd s.tasks t (some { runningFor cfg c e with phase := .responding res }) } := by
      simp only [step, hk, hres]; rfl
    have h2 : step cfg { s with tasks := upd s.tasks t (some { runningFor cfg c e with phase := .responding res }) } (.respond t id) =
        some { s with tasks := upd (upd s.tasks t (some { runningFor cfg c e with phase := .responding res })) t (some { runningFor cfg c e with phase := afterResponse res true })
                      out := upd s.out c (s.out c ++ [{ origin := .final t, event := finalEvent cfg (runningFor cfg c e) res id }])
                      created := s.created ++ [id] } := by
      simp [step, upd, runningFor]
      cases res <;> simp [finalEvent]
    rw [List.map_cons, List.nodup_cons] at hnd
    obtain ⟨ops, s', hops, hrun, ho⟩ := answer_all l {  s with
        tasks := upd (upd s.tasks t (some { runningFor cfg c e with phase := .responding res })) t (some { runningFor cfg c e with phase := afterResponse res true })
        out := upd s.out c (s.out c ++ [{ origin := .final t, event := finalEvent cfg (runningFor cfg c e) res id }])
        created := s.created ++ [id] } hnd.2 (by
      intro x hx
      obtain ⟨h3, h4⟩ := hl x (List.mem_cons_of_mem _ hx)
      have hne : x.1 ≠ t := fun heq => hnd.1 (List.mem_map.2 ⟨x, hx, heq⟩)
      refine ⟨h3, ?_⟩
      simp only [upd, hne, if_false]
      exact h4)
    refine ⟨.handlerDone t res :: .respond t id :: ops, s', ?_, ?_, ?_⟩
    · intro op hop
      rcases List.mem_cons.1 hop with rfl | hop
      · exact .inl ⟨t, res, rfl⟩
      rcases List.mem_cons.1 hop with rfl | hop
      · exact .inr ⟨t, id, rfl⟩
      · exact hops op hop
    · simp only [run, h1, Option.bind_some, h2]
      exact hrun
    · rw [ho]; simp [upd]

theorem forall₂_map_right {α β : Type} {R : α → β → Prop} {f : α → β} : ∀ {l : List α}, (∀ a ∈ l, R a (f a)) → List.Forall₂ R l (l.map f)
  | [], _ => .nil
  | a :: _, h => .cons (h a List.mem_cons_self) (forall₂_map_right fun x hx => h x (List.mem_cons_of_mem _ hx))

/-- **C95: any number of handlers run at the same time, and their answers are written in any order.** In every state of an endpoint in which the receive loop of a
connection is reading: let any events arrive that start handlers of the user. Then, with nothing else happening, all their handlers get to run at the same
time (so there is no bound on how many do), and whatever they return, in whatever order they return, their answers can be written in that order. The order in which requests
were made says nothing about the order of the answers. -/
theorem C95_any_number_in_any_order {s : State CB} (h : Reachable cfg s) {c : Nat} (hl : s.loop c = .idle) (hi : s.inbox c = [])
    (es : List Event) (hes : ∀ e ∈ es, StartsHandler cfg e) (res : Nat → Except Error Bytes) (ids : Nat → UInt64)
    (order : List Nat) (ho : order.Perm (List.range es.length)) :
    ∃ ops mid ops' s' as, run cfg s ops = some mid ∧ run cfg mid ops' = some s' ∧
      (∀ op ∈ ops, (∃ e ∈ es, op = .arrive c e) ∨ ∃ t, op = .take c t) ∧
      (∀ op ∈ ops', (∃ t r, op = .handlerDone t r) ∨ ∃ t id, op = .respond t id) ∧
      (∃ ts : List Nat, ts.Nodup ∧ List.Forall₂ (fun t e => s.tasks t = none ∧ mid.tasks t = some (runningFor cfg c e)) ts es) ∧
      (s'.out c).map (·.event) = (s.out c).map (·.event) ++ as ∧
      List.Forall₂ (fun i a => ∃ e, es[i]? = some e ∧ a.id = ids i ∧ IsAnswer cfg.fmtDebug e (res i) a) order as := by
  obtain ⟨ops, mid, ts, hops, hrun, hkeep, hout, hlen, hnd, hnone, hts⟩ := start_all (c := c) es h hl hi hes
  have hlt : ∀ i ∈ order, i < es.length := fun i hi => List.mem_range.1 (ho.mem_iff.1 hi)
  let d : Event := Event.new 0 none "" [] none .initiator
  let f : Nat → Nat × Event × Except Error Bytes × UInt64 := fun i => (ts.getD i 0, es.getD i d, res i, ids i)
  obtain ⟨ops', s', hops', hrun', ho'⟩ := answer_all (cfg := cfg) (c := c) (order.map f) mid
    (by
      rw [List.map_map]
      have hno : order.Nodup := ho.nodup_iff.2 List.nodup_range
      refine List.Pairwise.map _ (R := fun a b => a ≠ b ∧ a < es.length ∧ b < es.length) ?_ ?_
      · rintro a b ⟨hab, ha, hb⟩ heq
        simp only [Function.comp, f] at heq
        rw [List.getD_eq_getElem _ _ (hlen ▸ ha), List.getD_eq_getElem _ _ (hlen ▸ hb)] at heq
        exact hab ((List.getElem_inj hnd).1 heq)
      · refine List.Pairwise.imp_of_mem ?_ hno
        intro a b ha hb hab
        exact ⟨hab, hlt a ha, hlt b hb⟩)
    (by
      intro x hx
      obtain ⟨i, hi, rfl⟩ := List.mem_map.1 hx
      have hi' := hlt i hi
      simp only [f]
      rw [List.getD_eq_getElem _ _ hi', List.getD_eq_getElem _ _ (hlen ▸ hi')]
      exact ⟨hes _ (List.getElem_mem hi'), hts i _ _ (List.getElem?_eq_getElem _) (List.getElem?_eq_getElem hi')⟩)
  refine ⟨ops, mid, ops', s', _, hrun, hrun', hops, hops', ⟨ts, hnd, ?_⟩, (by rw [ho', hout]), ?_⟩
  · refine List.forall₂_iff_get.2 ⟨hlen, fun i h1 h2 => ⟨hnone _ (List.get_mem _ _), ?_⟩⟩
    exact hts i _ _ (List.getElem?_eq_getElem h1) (List.getElem?_eq_getElem h2)
  · rw [List.map_map]
    refine forall₂_map_right fun i hi => ?_
    have hi' := hlt i hi
    refine ⟨es[i], List.getElem?_eq_getElem hi', finalEvent_id _ _ _, ?_⟩
    have := finalEvent_isAnswer (cfg := cfg) (runningFor cfg c es[i]) (res i) (ids i)
    simp only [Function.comp, f, List.getD_eq_getElem _ _ hi']
    exact this

/-- Three requests, of which the last is answered first and the first last, and the second fails. -/
example : ∃ s, run demo {} [.arrive 0 (peerEvent 1 none "ping" .initiator none), .arrive 0 (peerEvent 2 (some "ns") "ping" .initiator none), .take 0 0,
      .arrive 0 (peerEvent 3 none "ping" .initiator none), .take 0 1, .take 0 2, .handlerDone 2 (.ok [9]), .respond 2 10, .handlerDone 1 (.error .timeout),
      .handlerDone 0 (.ok []), .respond 1 11, .respond 0 12] = some s ∧
    (s.out 0).map (fun o => o.event.referenceId) = [some 3, some 2, some 1] := by
  refine ⟨_, rfl, ?_⟩
  decide +kernel

/-- A handler answers after the receive loop of its connection has been stopped, with another handler still running. -/
example : ∃ s, run demo {} [.arrive 0 (peerEvent 1 none "ping" .initiator none), .arrive 0 (peerEvent 2 none "ping" .initiator none), .take 0 0, .take 0 1,
      .stop 0, .abort 0, .handlerDone 1 (.ok [9]), .respond 1 10] = some s ∧
    (s.out 0).map (fun o => o.event.referenceId) = [some 2] ∧ s.loop 0 = .ended none := by
  refine ⟨_, rfl, ?_⟩
  decide +kernel

example (n : Nat) (e : Event) (he : e = peerEvent 1 none "ping" .initiator none) : ∀ x ∈ List.replicate n e, StartsHandler demo x := by
  intro x hx
  rw [List.eq_of_mem_replicate hx, he]
  exact ⟨rfl, by decide, 1, by decide +kernel, rfl⟩

end
end Bromine.Props
