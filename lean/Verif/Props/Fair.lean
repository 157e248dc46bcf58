import Verif.Lemmas.Fair
/-
C69, C70: what must happen if nobody is neglected for ever.
-/
namespace Bromine.Props
open Endpoint Spec

section
variable {CB : Type} {cfg : Config CB} {σ : Nat → State CB} {op : Nat → Option Endpoint.Op}

/-- **C69: every event that arrives is dealt with.** In a fair execution of an endpoint, with an arbitrary peer, every event that arrives on a connection
is dealt with at some time (after those before it, and in its place), unless the receive loop of the connection ends. -/
theorem C69_every_event_is_dealt_with (F : FairRun cfg σ op) {c n i : Nat} {e : Event} (h : ((σ n).arrived c)[i]? = some e) :
    ∃ m, n ≤ m ∧ ((handledOn (σ m) c)[i]? = some e ∨ ¬ Receiving (σ m) c) := by
  apply Classical.byContradiction
  intro hno
  have hrec : ∀ m, n ≤ m → Receiving (σ m) c := fun m hm => Classical.byContradiction fun h => hno ⟨m, hm, .inr h⟩
  have hi := (List.getElem?_eq_some_iff.1 h).1
  obtain ⟨m, hm, hj⟩ := all_handled F hrec (i + 1) (by omega)
  refine hno ⟨m, hm, .inl ?_⟩
  have h1 : ((σ m).arrived c)[i]? = some e := by
    obtain ⟨l, hl⟩ := (exec_ext F.run hm).arrived c
    rw [← hl, List.getElem?_append_left hi]; exact h
  obtain ⟨l, hl⟩ := handled_arrived (exec_reach F.run m) c
  rw [← hl, List.getElem?_append_left (by omega)] at h1
  exact h1

/-- The final answer of a task that is over has been written. -/
theorem answer_of_done {s : State CB} (h : Reachable cfg s) {t : Nat} {k : Endpoint.Task CB} (hk : s.tasks t = some k) {res : Except Error Bytes}
    (hp : k.phase = .cleaning res true ∨ k.phase = .done res true) :
    ∃ a, IsAnswer cfg.fmtDebug k.event res a ∧ emittedBy s k.conn (.final t) = [a] := by
  have hfi := finals h t k.conn
  have : ∃ id, emittedBy s k.conn (.final t) = [finalEvent cfg k res id] := by
    rcases hp with hp | hp <;> · simp only [Finals, hk, hp, and_self, if_true] at hfi; exact hfi
  obtain ⟨id, hi⟩ := this
  exact ⟨_, finalEvent_isAnswer k res id, hi⟩

/-- A handler task that is scheduled fairly comes to an end. -/
theorem task_answered_of (E : Execution (Endpoint.step cfg) {} σ op) {t : Nat}
    (handlers : WeaklyFair (Endpoint.step cfg) σ op fun o => (∃ res, o = .handlerDone t res) ∨ o = .handlerPanic t)
    (responds : WeaklyFair (Endpoint.step cfg) σ op fun o => (∃ id, o = .respond t id) ∨ o = .respondFail t) {n : Nat} {k : Endpoint.Task CB} (hk : (σ n).tasks t = some k) :
    ∃ m, n ≤ m ∧ ∃ k', (σ m).tasks t = some k' ∧ k'.event = k.event ∧ k'.conn = k.conn ∧
      (¬ Healthy k' ∨ ∃ res a, IsAnswer cfg.fmtDebug k.event res a ∧ emittedBy (σ m) k.conn (.final t) = [a]) := by
  obtain ⟨m, hm, k', h1, h2, h3, h4⟩ := task_ends_of E handlers responds hk
  refine ⟨m, hm, k', h1, h2, h3, ?_⟩
  have done : ∀ res sent, (k'.phase = .cleaning res sent ∨ k'.phase = .done res sent) →
      ¬ Healthy k' ∨ ∃ res a, IsAnswer cfg.fmtDebug k.event res a ∧ emittedBy (σ m) k.conn (.final t) = [a] := by
    intro res sent hp
    cases sent with
    | false =>
      left
      rintro ⟨_, hh⟩
      rcases hp with hp | hp
      · exact (hh res).1 hp
      · exact (hh res).2 hp
    | true =>
      obtain ⟨a, g1, g2⟩ := answer_of_done (exec_reach E m) h1 hp
      exact .inr ⟨res, a, by rw [← h2]; exact g1, by rw [← h3]; exact g2⟩
  rcases h4 with h4 | ⟨res, sent, h4⟩
  · exact .inl fun hh => hh.1 h4
  · exact done res sent h4

/-- **C69: every handler task comes to an end.** In a fair execution every handler task panics, fails to write its answer, or has written exactly one final
answer, which is an answer to its event. -/
theorem C69_every_task_ends (F : FairRun cfg σ op) {t n : Nat} {k : Endpoint.Task CB} (hk : (σ n).tasks t = some k) :
    ∃ m, n ≤ m ∧ ∃ k', (σ m).tasks t = some k' ∧ k'.event = k.event ∧ k'.conn = k.conn ∧
      (¬ Healthy k' ∨ ∃ res a, IsAnswer cfg.fmtDebug k.event res a ∧ emittedBy (σ m) k.conn (.final t) = [a]) :=
  task_answered_of F.run (F.fair.handlers t) (F.fair.responds t) hk

/-- **C69: every event that arrives is served.** In a fair execution of an endpoint, with an arbitrary peer: whatever arrives is at some time delivered to the
request it refers to, or ignored as an End event, or has been answered by a handler task - unless the receive loop ends, the callback panics or the answer
cannot be written. -/
theorem C69_every_event_is_served (F : FairRun cfg σ op) {c n : Nat} {e : Event} (h : e ∈ (σ n).arrived c) :
    ∃ m, n ≤ m ∧ (¬ Receiving (σ m) c ∨ e.eventType = .end ∨
      (∃ r q, (σ m).reqs r = some q ∧ e.referenceId = some q.event.id ∧ e ∈ delivered (σ m) r) ∨
      ∃ t k, (σ m).tasks t = some k ∧ k.event = e ∧ k.conn = c ∧
        (¬ Healthy k ∨ ∃ res a, IsAnswer cfg.fmtDebug e res a ∧ emittedBy (σ m) c (.final t) = [a])) := by
  obtain ⟨i, hi⟩ := List.getElem?_of_mem h
  obtain ⟨m, hm, h1 | h1⟩ := C69_every_event_is_dealt_with F hi
  · have hmem := List.mem_of_getElem? h1
    simp only [handledOn, List.mem_map, List.mem_filter, decide_eq_true_eq] at hmem
    obtain ⟨x, ⟨hx, hxc⟩, rfl⟩ := hmem
    rcases (C28_exactly_once (exec_reach F.run m)).1 x hx with ⟨r, q, hd, hq, ha⟩ | ⟨t, k, _, hk, hke, hkc⟩ | ⟨_, hty⟩
    · refine ⟨m, hm, .inr (.inr (.inl ⟨r, q, hq, ?_, ?_⟩))⟩
      · simp [answers] at ha; exact ha.1
      · simp only [delivered, List.mem_map, List.mem_filter, decide_eq_true_eq]
        exact ⟨x, ⟨hx, hd⟩, rfl⟩
    · obtain ⟨m', hm', k', g1, g2, g3, g4⟩ := C69_every_task_ends F hk
      refine ⟨m', by omega, .inr (.inr (.inr ⟨t, k', g1, g2.trans hke, (g3.trans hkc).trans hxc, ?_⟩))⟩
      rw [hke, hkc, hxc] at g4
      exact g4
    · exact ⟨m, hm, .inr (.inl hty)⟩
  · exact ⟨m, hm, .inl h1⟩

end

section
variable {CA CB : Type} {ca : Config CA} {cb : Config CB} {linked : Nat → Bool} {σ : Nat → System.Sys CA CB} {op : Nat → Option System.Op}
variable {r : Nat} {q0 : Req}

/-- What has to happen, from time `n` on, for a request to be settled. -/
structure Serving (ca : Config CA) (cb : Config CB) (linked : Nat → Bool) (σ : Nat → System.Sys CA CB) (op : Nat → Option System.Op) (r : Nat) (q0 : Req) (n : Nat) : Prop where
  run : Execution (System.step ca cb linked) {} σ op
  reads : WeaklyFair (Endpoint.step ca) (fun n => (σ n).a) (System.leftOp σ op) fun o => o = .recv r
  finishes : WeaklyFair (Endpoint.step ca) (fun n => (σ n).a) (System.leftOp σ op) fun o => o = .finish r
  written : ∃ m, n ≤ m ∧ ∃ q, (σ m).a.reqs r = some q ∧ q.phase ≠ .registered
  there : ∀ (k i : Nat) (x : OutEntry), n ≤ k → ((σ k).a.out q0.conn)[i]? = some x → ∃ m, k ≤ m ∧ (handledOn (σ m).b q0.conn)[i]? = some x.event
  back : ∀ (k i : Nat) (x : OutEntry), n ≤ k → ((σ k).b.out q0.conn)[i]? = some x → ∃ m, k ≤ m ∧ (handledOn (σ m).a q0.conn)[i]? = some x.event
  task : ∀ (k t : Nat) (j : Endpoint.Task CB), n ≤ k → (σ k).b.tasks t = some j → j.conn = q0.conn → ∃ m, k ≤ m ∧ ∃ j', (σ m).b.tasks t = some j' ∧ j'.event = j.event ∧ j'.conn = j.conn ∧
    (¬ Healthy j' ∨ ∃ res a, IsAnswer cb.fmtDebug j.event res a ∧ emittedBy (σ m).b j.conn (.final t) = [a])

/-- Last stage: the channel of the request holds its answer. -/
theorem fair_receive {n0 : Nat} (S : Serving ca cb linked σ op r q0 n0) {n : Nat} (W : ∀ m, n ≤ m → Way ca cb linked r q0 (σ m)) {q : Req} (hq : (σ n).a.reqs r = some q)
    (ha : ∃ e ∈ q.popped ++ q.buf, e.eventType = .end ∨ e.eventType = .error) : ∃ m, n ≤ m ∧ Settled (σ m) r q0 := by
  apply Classical.byContradiction
  intro hno
  have EL := System.exec_left S.run
  have hra : ∀ m, Reachable ca (σ m).a := exec_reach EL
  obtain ⟨e, he, hty⟩ := ha
  obtain ⟨m1, hm1, hreg⟩ : ∃ m1, n ≤ m1 ∧ ∃ q, (σ m1).a.reqs r = some q ∧ q.phase ≠ .registered := by
    obtain ⟨m1, -, h⟩ := S.written
    exact ⟨max n m1, by omega, stays_unregistered EL (show m1 ≤ max n m1 by omega) h⟩
  -- it waits
  have wait : ∀ m, m1 ≤ m → ∃ q', (σ m).a.reqs r = some q' ∧ q'.phase = .waiting ∧ q'.kind = q0.kind := by
    intro m hm
    obtain ⟨q', hq', ow⟩ := (W m (by omega)).req
    obtain ⟨q'', hq'', hnr⟩ := stays_unregistered EL hm hreg
    try dsimp only at hq''
    rw [hq'] at hq''; cases hq''
    rcases ow.2.2.2 with hp | hp | ⟨l, hp⟩ | hp
    · exact absurd hp hnr
    · exact ⟨q', hq', hp, ow.2.2.1⟩
    · obtain ⟨m2, hm2, q2, h2, h3⟩ := closing_finishes_of EL S.finishes (n := m) hq' hp
      obtain ⟨q3, hq3, ow3⟩ := (W m2 (by omega)).req
      try dsimp only at h2
      rw [h2] at hq3; cases hq3
      exact absurd ⟨m2, by omega, q2, h2, ow3.2.2.1, .inl (by simpa using h3)⟩ hno
    · exact absurd ⟨m, by omega, q', hq', ow.2.2.1, .inl hp⟩ hno
  -- the answer has not been taken
  have notyet : ∀ m, m1 ≤ m → ∀ q', (σ m).a.reqs r = some q' → e ∉ q'.popped := by
    intro m hm q' hq' hin
    obtain ⟨q'', hq'', hp, hk⟩ := wait m hm
    rw [hq'] at hq''; cases hq''
    have hsh := (reqInv (hra m)).shape r q' hq'
    simp only [Shape, hp] at hsh
    cases hkk : q'.kind with
    | single => rw [hsh.1 hkk] at hin; simp at hin
    | stream =>
      rcases hty with hty | hty
      · exact hsh.2 e hin hty
      · exact hno ⟨m, by omega, q', hq', hk, .inr ⟨hkk, e, hin, hty⟩⟩
  -- where the answer is
  obtain ⟨i, hi⟩ := List.getElem?_of_mem he
  have place : ∀ m, m1 ≤ m → ∀ q', (σ m).a.reqs r = some q' → (q'.popped ++ q'.buf)[i]? = some e := by
    intro m hm q' hq'
    have h1 := (reqInv (hra n)).account r q hq
    have h2 := (reqInv (hra m)).account r q' hq'
    obtain ⟨l, hl⟩ := (exec_ext EL (show n ≤ m by omega)).processed
    have h3 := delivered_append (σ n).a l r (σ m).a hl.symm
    rw [h2, h3, ← h1, List.getElem?_append_left (List.getElem?_eq_some_iff.1 hi).1]
    exact hi
  -- one event after the other is taken
  have count : ∀ j, j ≤ i + 1 → ∃ m, m1 ≤ m ∧ ∃ q', (σ m).a.reqs r = some q' ∧ j ≤ q'.popped.length := by
    intro j
    induction j with
    | zero =>
      intro _
      obtain ⟨q', hq', _⟩ := wait m1 (Nat.le_refl _)
      exact ⟨m1, Nat.le_refl _, q', hq', Nat.zero_le _⟩
    | succ j ih =>
      intro hj
      obtain ⟨m, hm, q', hq', hlen⟩ := ih (by omega)
      obtain ⟨k, hk, o, ho, rfl⟩ := S.reads m (fun k hk => by
        obtain ⟨q2, hq2, hp, _⟩ := wait k (by omega)
        cases hb : q2.buf with
        | nil =>
          have := place k (by omega) q2 hq2
          rw [hb, List.append_nil] at this
          exact absurd (List.mem_of_getElem? this) (notyet k (by omega) q2 hq2)
        | cons e rest => exact can (o := .recv r) rfl (by simp only [step, hq2, hp, hb, if_true]; exact ⟨_, rfl⟩))
      obtain ⟨q2, hq2, hpre⟩ := popped_prefix EL (r := r) (n := m) (m := k) hq' hk
      have hl2 := hpre.length_le
      have hs := exec_taken EL ho
      try dsimp only at hq2 hs
      refine ⟨k + 1, by omega, ?_⟩
      generalize (σ (k + 1)).a = s' at *
      cases hs with
      | recv _ q3 e rest hq3 hp hb hc =>
        rw [hq2] at hq3; cases hq3
        exact ⟨_, by simp only [upd_apply, if_true]; rfl, by simp; omega⟩
      | recvLast _ q3 e rest hq3 hp hb hc =>
        rw [hq2] at hq3; cases hq3
        exact ⟨_, by simp only [upd_apply, if_true]; rfl, by simp; omega⟩
  obtain ⟨m, hm, q', hq', hlen⟩ := count (i + 1) (Nat.le_refl _)
  have := place m hm q' hq'
  rw [List.getElem?_append_left (by omega)] at this
  exact notyet m hm q' hq' (List.mem_of_getElem? this)

/-- The answer has been written by the second side. -/
theorem fair_answered {n0 : Nat} (S : Serving ca cb linked σ op r q0 n0) (hl : ∀ c, linked c = true) {n : Nat} (hn : n0 ≤ n) (W : ∀ m, n ≤ m → Way ca cb linked r q0 (σ m)) {y : OutEntry}
    (hy : y ∈ (σ n).b.out q0.conn) (href : y.event.referenceId = some q0.event.id) (hty : y.event.eventType = .end ∨ y.event.eventType = .error) :
    ∃ m, n ≤ m ∧ Settled (σ m) r q0 := by
  obtain ⟨i, hi⟩ := List.getElem?_of_mem hy
  -- it is dealt with
  obtain ⟨m2, hm2, hh⟩ := S.back n i y hn hi
  have w := W m2 (by omega)
  obtain ⟨q, hq, ow⟩ := w.req
  by_cases hp : q.phase = .finished .replied
  · exact ⟨m2, by omega, q, hq, ow.2.2.1, .inl hp⟩
  have halive : q.alive = true := by
    rcases ow.2.2.2 with h | h | ⟨e, h⟩ | h
    · simp [Req.alive, h]
    · simp [Req.alive, h]
    · simp [Req.alive, h]
    · exact absurd h hp
  have hf := System.freshIds w.reach w.ids hl
  have hc := C22_complete (System.reachable_left w.reach) hf hq halive
  have hmem := List.mem_of_getElem? hh
  simp only [handledOn, List.mem_map, List.mem_filter, decide_eq_true_eq] at hmem
  obtain ⟨x, ⟨hx, hxc⟩, hxe⟩ := hmem
  have hans : answers ca q x = true := by simp [answers, hxe, href, ow.1, hxc, ow.2.1]
  have hin : y.event ∈ q.popped ++ q.buf := by
    rw [hc]
    simp only [List.mem_map, List.mem_filter]
    refine ⟨x, ⟨?_, hans⟩, hxe⟩
    rw [← List.take_append_drop q.regAt (σ m2).a.processed] at hx
    rcases List.mem_append.1 hx with hx | hx
    · have := no_early_reply w.reach w.ids r q hq (fun c _ => hl c) x hx
      rw [hans] at this; cases this
    · exact hx
  obtain ⟨m3, hm3, h3⟩ := fair_receive S (n := m2) (fun m hm => W m (by omega)) hq ⟨_, hin, hty⟩
  exact ⟨m3, by omega, h3⟩

/-- What is written on a connection that is read arrives in its place. -/
theorem fair_arrives (F : FairSys ca cb linked σ op) {c : Nat} (hl : linked c = true) {n i : Nat} {x : OutEntry} (hi : ((σ n).a.out c)[i]? = some x)
    (hrec : ∀ m, n ≤ m → Receiving (σ m).b c) : ∃ m, n ≤ m ∧ ((σ m).b.arrived c)[i]? = some x.event := by
  have FL := System.fairRun_left F
  have hilt := (List.getElem?_eq_some_iff.1 hi).1
  obtain ⟨m, hm, ha⟩ := System.all_arrive F (c := c) hl n (i + 1) hilt hrec
  refine ⟨m, hm, ?_⟩
  have h1 : ((σ m).a.out c)[i]? = some x := by
    obtain ⟨l, hl'⟩ := (exec_ext FL.run hm).out c
    try dsimp only at hl'
    rw [← hl', List.getElem?_append_left hilt]; exact hi
  obtain ⟨l, hl'⟩ := System.fifo_right (System.exec_reach F.run m) c hl
  have h2 : (((σ m).a.out c).map (·.event))[i]? = some x.event := by simp [h1]
  rw [← hl', List.getElem?_append_left (by omega)] at h2
  exact h2

/-- **C70: every emitted event is served by the peer.** In every fair execution, whatever one side has emitted on a linked connection is at some time dealt with by
the other side in the place in which it was emitted - delivered to the request it refers to, ignored as an End event, or answered by a handler task - unless the other side
stops reading the connection, the callback panics or the answer cannot be written. -/
theorem C70_emitted_event_is_served (F : FairSys ca cb linked σ op) {c : Nat} (hl : linked c = true) {n i : Nat} {x : OutEntry}
    (hx : ((σ n).a.out c)[i]? = some x) :
    ∃ m, n ≤ m ∧ (¬ Receiving (σ m).b c ∨ ((handledOn (σ m).b c)[i]? = some x.event ∧
      (x.event.eventType = .end ∨
      (∃ r q, (σ m).b.reqs r = some q ∧ x.event.referenceId = some q.event.id ∧ x.event ∈ delivered (σ m).b r) ∨
      ∃ t k, (σ m).b.tasks t = some k ∧ k.event = x.event ∧ k.conn = c ∧
        (¬ Healthy k ∨ ∃ res a, IsAnswer cb.fmtDebug x.event res a ∧ emittedBy (σ m).b c (.final t) = [a])))) := by
  have FR := System.fairRun_left (System.fairSys_swap F)
  by_cases hrec : ∃ m, n ≤ m ∧ ¬ Receiving (σ m).b c
  · obtain ⟨m, hm, h⟩ := hrec
    exact ⟨m, hm, .inl h⟩
  obtain ⟨m1, hm1, h1⟩ := fair_arrives F hl hx fun m hm => Classical.byContradiction fun h => hrec ⟨m, hm, h⟩
  obtain ⟨m2, hm2, h2⟩ := C69_every_event_is_dealt_with FR (n := m1) (c := c) h1
  simp only [System.Sys.swap] at h2
  rcases h2 with h2 | h2
  swap
  · exact ⟨m2, by omega, .inl h2⟩
  obtain ⟨m3, hm3, h3⟩ := C69_every_event_is_served FR (n := m2) (c := c) (List.mem_of_getElem? (show ((σ m2).b.arrived c)[i]? = some x.event by
    obtain ⟨l, hl'⟩ := handled_arrived (System.reachable_right (System.exec_reach F.run m2)) c
    rw [← hl', List.getElem?_append_left (List.getElem?_eq_some_iff.1 h2).1]; exact h2))
  simp only [System.Sys.swap] at h3
  refine ⟨m3, by omega, ?_⟩
  have h4 : (handledOn (σ m3).b c)[i]? = some x.event := by
    obtain ⟨l, hl'⟩ := handledOn_prefix (exec_ext FR.run hm3) c
    simp only [System.Sys.swap] at hl'
    rw [← hl', List.getElem?_append_left (List.getElem?_eq_some_iff.1 h2).1]; exact h2
  rcases h3 with h3 | h3
  · exact .inl h3
  · exact .inr ⟨h4, h3⟩

/-- The whole way. -/
theorem settled_of {n : Nat} (S : Serving ca cb linked σ op r q0 n) (hl : ∀ c, linked c = true) (W : ∀ m, n ≤ m → Way ca cb linked r q0 (σ m))
    (hnoref : q0.event.referenceId = none) : ∃ m, n ≤ m ∧ Settled (σ m) r q0 := by
  obtain ⟨m1, hm1, q1, hq1, hp1⟩ := S.written
  have w1 := W m1 hm1
  obtain ⟨q1', hq1', ow⟩ := w1.req
  rw [hq1] at hq1'; cases hq1'
  -- it is written
  obtain ⟨x, hx, hxe⟩ := past_written (System.reachable_left w1.reach) r q1 hq1 (by
    rcases ow.2.2.2 with h | h | ⟨e, h⟩ | h
    · exact absurd h hp1
    · exact .inl h
    · exact .inr (.inl ⟨_, h⟩)
    · exact .inr (.inr h))
  rw [ow.2.1] at hx
  rw [ow.1] at hxe
  obtain ⟨i, hi⟩ := List.getElem?_of_mem hx
  -- it is dealt with
  obtain ⟨m3, hm3, h3⟩ := S.there m1 i x hm1 hi
  rw [hxe] at h3
  have w3 := W m3 (by omega)
  have hmem := List.mem_of_getElem? h3
  simp only [handledOn, List.mem_map, List.mem_filter, decide_eq_true_eq] at hmem
  obtain ⟨y, ⟨hy, hyc⟩, hye⟩ := hmem
  rcases (C28_exactly_once (System.reachable_right w3.reach)).1 y hy with ⟨r', q', _, _, h3⟩ | ⟨t, k, _, hk, hke, hkc⟩ | ⟨_, h3⟩
  · simp [answers, hye, hnoref] at h3
  · rw [hye] at hke
    rw [hyc] at hkc
    obtain ⟨m4, hm4, k', hk', g2, g3, h4⟩ := S.task m3 t k (by omega) hk hkc
    rw [hke] at g2 h4
    rw [hkc] at g3 h4
    rcases h4 with h4 | ⟨res, a, h4, h5⟩
    · exfalso
      have := (W m4 (by omega)).fine t k' hk' ⟨g3, g2⟩
      refine h4 ⟨?_, ?_⟩
      · intro hp; simp [TaskFine, hp] at this
      · intro res; constructor <;> (intro hp; simp [TaskFine, hp] at this)
    · have hmem : a ∈ emittedBy (σ m4).b q0.conn (.final t) := by rw [h5]; simp
      simp only [emittedBy, List.mem_map, List.mem_filter] at hmem
      obtain ⟨y, ⟨hy, _⟩, rfl⟩ := hmem
      obtain ⟨m5, hm5, h⟩ := fair_answered S hl (n := m4) (by omega) (fun m hm => W m (by omega)) hy h4.1 (isAnswer_type h4)
      exact ⟨m5, by omega, h⟩
  · rw [hye] at h3
    have ho := (outInv (System.reachable_left w1.reach)).req r q1 hq1
    rcases hqo : q1.origin with _ | t2 | t2
    · rw [hqo] at ho
      have := ho.1.2
      rw [ow.1, h3] at this
      cases this
    · rw [hqo] at ho
      obtain ⟨k2, _, _, _, g, _⟩ := ho.1
      rw [ow.1, hnoref] at g
      cases g
    · exact absurd hqo (ho.2 t2)

/-- In a fair execution this happens. -/
theorem fair_serving (F : FairSys ca cb linked σ op) (hl : ∀ c, linked c = true) {n : Nat} (W : ∀ m, n ≤ m → Way ca cb linked r q0 (σ m)) :
    Serving ca cb linked σ op r q0 n := by
  have FL := System.fairRun_left F
  have FR := System.fairRun_left (System.fairSys_swap F)
  obtain ⟨q, hq, _⟩ := (W n (Nat.le_refl _)).req
  refine ⟨F.run, FL.fair.reads r, FL.fair.finishes r, leaves_registered FL n ⟨q, hq⟩, fun k i x hk hx => ?_, fun k i x hk hx => ?_, fun k t j hk hj _ => C69_every_task_ends FR hj⟩
  · obtain ⟨m1, hm1, h1⟩ := fair_arrives F (hl _) hx fun m hm => (W m (by omega)).recB
    obtain ⟨m2, hm2, h2 | h2⟩ := C69_every_event_is_dealt_with FR (n := m1) (c := q0.conn) h1
    · exact ⟨m2, by omega, h2⟩
    · exact absurd (W m2 (by omega)).recB h2
  · obtain ⟨m1, hm1, h1⟩ := fair_arrives (System.fairSys_swap F) (hl _) hx fun m hm => (W m (by omega)).recA
    obtain ⟨m2, hm2, h2 | h2⟩ := C69_every_event_is_dealt_with FL (n := m1) (c := q0.conn) h1
    · exact ⟨m2, by omega, h2⟩
    · exact absurd (W m2 (by omega)).recA h2

/-- Without such an obstacle the request stays on its way. -/
theorem way_of (E : Execution (System.step ca cb linked) {} σ op) (hl : ∀ c, linked c = true) (hd : ∀ m, System.DistinctIds (σ m)) {n : Nat} {q : Req}
    (hq : (σ n).a.reqs r = some q) (hno : ∀ m, n ≤ m → ¬ GivenUp (σ m) r q) : ∀ m, n ≤ m → Way ca cb linked r q (σ m) := by
  intro m hm
  have hre := System.exec_reach E m
  have hno := hno m hm
  refine ⟨hre, hd m, Classical.byContradiction fun h => hno (.inr (.inl h)), Classical.byContradiction fun h => hno (.inr (.inr (.inl h))), ?_, ?_⟩
  · obtain ⟨q', hq', e1, e2, e3, _⟩ := (exec_ext (System.exec_left E) hm).reqs r q hq
    try dsimp only at hq'
    refine ⟨q', hq', e1, e2, e3, ?_⟩
    obtain ⟨c1, c2⟩ := C51_never_closed (System.reachable_left hre) (System.freshIds hre (hd m) hl) hq'
    cases hp : q'.phase with
    | registered => simp
    | waiting => simp
    | closing l =>
      cases l with
      | none => exact absurd hp c2
      | some e => simp
    | finished how =>
      cases how with
      | replied => simp
      | timeout => exact absurd (.inl ⟨q', hq', .inl hp⟩) hno
      | failed => exact absurd (.inl ⟨q', hq', .inr (.inl hp)⟩) hno
      | dropped => exact absurd (.inl ⟨q', hq', .inr (.inr hp)⟩) hno
      | closed => exact absurd hp c1
  · rintro t k hk ⟨hkc, hke⟩
    exact healthy_fine (Classical.byContradiction fun h => hno (.inr (.inr (.inr ⟨t, k, hk, hkc, hke, h⟩))))

/-- An `await_reply` that is served completes. -/
theorem await_of (E : Execution (System.step ca cb linked) {} σ op) (hl : ∀ c, linked c = true) (hd : ∀ m, System.DistinctIds (σ m)) {n : Nat} {q : Req}
    (hq : (σ n).a.reqs r = some q) (hkind : q.kind = .single) (hnoref : q.event.referenceId = none)
    (hs : (∀ m, n ≤ m → Way ca cb linked r q (σ m)) → Serving ca cb linked σ op r q n) :
    ∃ m, n ≤ m ∧ (GivenUp (σ m) r q ∨ ∃ q' e, (σ m).a.reqs r = some q' ∧ q'.event = q.event ∧ q'.phase = .finished .replied ∧ q'.popped = [e] ∧
      e.referenceId = some q.event.id) := by
  apply Classical.byContradiction
  intro hno
  have W := way_of E hl hd hq (fun m hm h => hno ⟨m, hm, .inl h⟩)
  obtain ⟨m, hm, q', hq', hki, hset⟩ := settled_of (hs W) hl W hnoref
  have w := W m hm
  obtain ⟨q'', hq'', ow⟩ := w.req
  rw [hq'] at hq''; cases hq''
  have hs : q'.phase = .finished .replied := by
    rcases hset with hset | ⟨hset, _⟩
    · exact hset
    · rw [hki, hkind] at hset; cases hset
  have hsh := (reqInv (System.reachable_left w.reach)).shape r q' hq'
  simp only [Shape, hs] at hsh
  obtain ⟨l, e, he, hsing, _⟩ := hsh
  rw [hsing (hki.trans hkind), List.nil_append] at he
  refine hno ⟨m, hm, .inr ⟨q', e, hq', ow.1, hs, he, ?_⟩⟩
  rw [← ow.1]
  exact ((C20_correlated (System.reachable_left w.reach) hq') e (by rw [he]; simp)).1

/-- **C70: `await_reply` completes.** In every fair execution of two joined endpoints, an `await_reply` made with the connection's context returns exactly one
event, which refers to the request - unless something comes between (see `GivenUp`). -/
theorem C70_await_reply_completes (F : FairSys ca cb linked σ op) (hl : ∀ c, linked c = true) (hd : ∀ m, System.DistinctIds (σ m)) {n : Nat} {q : Req}
    (hq : (σ n).a.reqs r = some q) (hkind : q.kind = .single) (hnoref : q.event.referenceId = none) :
    ∃ m, n ≤ m ∧ (GivenUp (σ m) r q ∨ ∃ q' e, (σ m).a.reqs r = some q' ∧ q'.event = q.event ∧ q'.phase = .finished .replied ∧ q'.popped = [e] ∧
      e.referenceId = some q.event.id) :=
  await_of F.run hl hd hq hkind hnoref fun W => fair_serving F hl W

/-- A stream that is served gets to the answer. -/
theorem stream_of (E : Execution (System.step ca cb linked) {} σ op) (hl : ∀ c, linked c = true) (hd : ∀ m, System.DistinctIds (σ m)) {n : Nat} {q : Req}
    (hq : (σ n).a.reqs r = some q) (hkind : q.kind = .stream) (hnoref : q.event.referenceId = none)
    (hs : (∀ m, n ≤ m → Way ca cb linked r q (σ m)) → Serving ca cb linked σ op r q n) :
    ∃ m, n ≤ m ∧ (GivenUp (σ m) r q ∨ ∃ q', (σ m).a.reqs r = some q' ∧ q'.event = q.event ∧
      ((q'.phase = .finished .replied ∧ ∃ l e, q'.popped = l ++ [e] ∧ e.eventType = .end) ∨ ∃ e ∈ q'.popped, e.eventType = .error)) := by
  apply Classical.byContradiction
  intro hno
  have W := way_of E hl hd hq (fun m hm h => hno ⟨m, hm, .inl h⟩)
  obtain ⟨m, hm, q', hq', hki, hset⟩ := settled_of (hs W) hl W hnoref
  have w := W m hm
  obtain ⟨q'', hq'', ow⟩ := w.req
  rw [hq'] at hq''; cases hq''
  refine hno ⟨m, hm, .inr ⟨q', hq', ow.1, ?_⟩⟩
  rcases hset with hset | ⟨_, hset⟩
  · exact .inl ⟨hset, (C22_ended_by_end (System.reachable_left w.reach) hq').1 (hki.trans hkind) hset⟩
  · exact .inr hset

/-- **C70: `stream_replies` gets to the answer of the handler.** The same for a stream: it ends with the End event, or yields the Error event of its
handler (which does not end it, C63). -/
theorem C70_stream_completes (F : FairSys ca cb linked σ op) (hl : ∀ c, linked c = true) (hd : ∀ m, System.DistinctIds (σ m)) {n : Nat} {q : Req}
    (hq : (σ n).a.reqs r = some q) (hkind : q.kind = .stream) (hnoref : q.event.referenceId = none) :
    ∃ m, n ≤ m ∧ (GivenUp (σ m) r q ∨ ∃ q', (σ m).a.reqs r = some q' ∧ q'.event = q.event ∧
      ((q'.phase = .finished .replied ∧ ∃ l e, q'.popped = l ++ [e] ∧ e.eventType = .end) ∨ ∃ e ∈ q'.popped, e.eventType = .error)) :=
  stream_of F.run hl hd hq hkind hnoref fun W => fair_serving F hl W

end

/-! ### Fair executions exist: a finite run, after which everything rests. -/

section
variable {S O : Type} {step : S → O → Option S}

/-- The steps `ops` lead from one state to the other. -/
def Chain (step : S → O → Option S) : S → List O → S → Prop
  | s, [], s' => s = s'
  | s, o :: ops, s' => ∃ s1, step s o = some s1 ∧ Chain step s1 ops s'

/-- The states of the execution that takes the steps `ops` and then rests. -/
def walk (step : S → O → Option S) : S → List O → Nat → S
  | s, [], _ => s
  | s, _ :: _, 0 => s
  | s, o :: ops, n + 1 => walk step ((step s o).getD s) ops n

theorem walk_zero (s : S) (ops : List O) : walk step s ops 0 = s := by cases ops <;> rfl

theorem walk_rest {s s' : S} {ops : List O} (h : Chain step s ops s') {n : Nat} (hn : ops.length ≤ n) : walk step s ops n = s' := by
  induction ops generalizing s n with
  | nil => exact h
  | cons o ops ih =>
    obtain ⟨s1, h1, h2⟩ := h
    cases n with
    | zero => simp at hn
    | succ n => simp only [walk, h1, Option.getD_some]; exact ih h2 (by simpa using hn)

theorem walk_append {s s' : S} {ops : List O} (h : Chain step s ops s') (ops' : List O) : walk step s (ops ++ ops') ops.length = s' := by
  induction ops generalizing s with
  | nil => rw [← (show s = s' from h)]; exact walk_zero s ops'
  | cons o ops ih =>
    obtain ⟨s1, h1, h2⟩ := h
    simp only [List.cons_append, List.length_cons, walk, h1, Option.getD_some]
    exact ih h2

theorem walk_exec {s s' : S} {ops : List O} (h : Chain step s ops s') : Execution step s (walk step s ops) (fun n => ops[n]?) := by
  refine ⟨walk_zero s ops, fun n => ?_⟩
  induction ops generalizing s n with
  | nil => rfl
  | cons o ops ih =>
    obtain ⟨s1, h1, h2⟩ := h
    cases n with
    | zero => simp only [List.getElem?_cons_zero, walk, h1, Option.getD_some, walk_zero]
    | succ n =>
      have := ih h2 n
      simp only [List.getElem?_cons_succ, walk, h1, Option.getD_some]
      exact this

/-- Classes of steps of which none is possible at the end are treated fairly. -/
theorem walk_strong {s s' : S} {ops : List O} (h : Chain step s ops s') {C : O → Prop} (hC : ¬ Possible step s' C) :
    StronglyFair step (walk step s ops) (fun n => ops[n]?) C := by
  intro n hn
  obtain ⟨m, hm, hp⟩ := hn (max n ops.length) (by omega)
  rw [walk_rest h (by omega)] at hp
  exact absurd hp hC

theorem weak_of_strong {σ : Nat → S} {op : Nat → Option O} {C : O → Prop} (h : StronglyFair step σ op C) : WeaklyFair step σ op C :=
  fun n hn => h n fun m hm => ⟨m, Nat.le_refl _, hn m hm⟩

theorem weakWhile_of_strong {σ : Nat → S} {op : Nat → Option O} {C : O → Prop} {R : S → Prop} (h : StronglyFair step σ op C) : WeaklyFairWhile step σ op R C :=
  fun n hn => h n fun m hm => ⟨m, Nat.le_refl _, (hn m hm).2⟩

end

/-- An endpoint rests: nothing is in its inboxes, no event is held, every request is finished or waits with an empty channel, no handler is running. -/
structure Resting {CB : Type} (s : State CB) : Prop where
  inbox : ∀ c, s.inbox c = []
  loop : ∀ c r e, s.loop c ≠ .sending r e
  reqs : ∀ r q, s.reqs r = some q → (q.phase = .waiting ∧ q.buf = []) ∨ ∃ h, q.phase = .finished h
  tasks : ∀ t k, s.tasks t = some k → (∀ res, k.phase ≠ .responding res) ∧ k.phase ≠ .running

/-- Nothing of what fairness is about is possible in an endpoint that rests. -/
theorem Resting.none {CB : Type} {cfg : Config CB} {s s' : State CB} (h : Resting s) {o : Endpoint.Op} (ho : Endpoint.step cfg s o = some s') :
    (∀ c t, o ≠ .take c t) ∧ (∀ c t, o ≠ .deliver c t) ∧ (∀ r, o ≠ .sent r) ∧ (∀ r, o ≠ .sendFail r) ∧ (∀ r, o ≠ .recv r) ∧ (∀ r, o ≠ .finish r) ∧
    (∀ t res, o ≠ .handlerDone t res) ∧ (∀ t, o ≠ .handlerPanic t) ∧ (∀ t id, o ≠ .respond t id) ∧ (∀ t, o ≠ .respondFail t) := by
  have hs := stepR_of_step ho
  have h1 := h.inbox
  have h2 := h.loop
  have h3 := h.reqs
  have h4 := h.tasks
  cases hs
  all_goals simp
  all_goals grind

theorem fairSide_walk {S O CB : Type} {step : S → O → Option S} {s s' : S} {ops : List O} (h : Chain step s ops s') {lift : Endpoint.Op → O} {cfg : Config CB}
    {x : State CB} (hx : Resting x) (hlift : ∀ o y, step s' (lift o) = some y → ∃ x', Endpoint.step cfg x o = some x') :
    FairSide step (walk step s ops) (fun n => ops[n]?) lift := by
  have no : ∀ o y, step s' (lift o) = some y → _ := fun o y hy => (hx.none (hlift o y hy).choose_spec)
  refine ⟨fun c => weak_of_strong (walk_strong h ?_), fun c => walk_strong h ?_, fun r => weak_of_strong (walk_strong h ?_), fun r => weak_of_strong (walk_strong h ?_),
    fun r => weak_of_strong (walk_strong h ?_), fun t => weak_of_strong (walk_strong h ?_), fun t => weak_of_strong (walk_strong h ?_)⟩
  · rintro ⟨o, y, ⟨t, rfl⟩, hy⟩; exact (no _ y hy).1 c t rfl
  · rintro ⟨o, y, ⟨t, rfl⟩, hy⟩; exact (no _ y hy).2.1 c t rfl
  · rintro ⟨o, y, rfl | rfl, hy⟩
    · exact (no _ y hy).2.2.1 r rfl
    · exact (no _ y hy).2.2.2.1 r rfl
  · rintro ⟨o, y, rfl, hy⟩; exact (no _ y hy).2.2.2.2.1 r rfl
  · rintro ⟨o, y, rfl, hy⟩; exact (no _ y hy).2.2.2.2.2.1 r rfl
  · rintro ⟨o, y, ⟨res, rfl⟩ | rfl, hy⟩
    · exact (no _ y hy).2.2.2.2.2.2.1 t res rfl
    · exact (no _ y hy).2.2.2.2.2.2.2.1 t rfl
  · rintro ⟨o, y, ⟨id, rfl⟩ | rfl, hy⟩
    · exact (no _ y hy).2.2.2.2.2.2.2.2.1 t id rfl
    · exact (no _ y hy).2.2.2.2.2.2.2.2.2 t rfl

section
variable {CA CB : Type} {ca : Config CA} {cb : Config CB} {linked : Nat → Bool}

theorem chain_of_run {s s' : System.Sys CA CB} {ops : List System.Op} (h : System.run ca cb linked s ops = some s') : Chain (System.step ca cb linked) s ops s' := by
  induction ops generalizing s with
  | nil => exact Option.some.inj h
  | cons o ops ih =>
    simp only [System.run, Option.bind_eq_some_iff] at h
    obtain ⟨y, h1, h2⟩ := h
    exact ⟨y, h1, ih h2⟩

/-- A run after which both sides rest and everything written has arrived can be continued to a fair execution. -/
theorem fairSys_walk {s : System.Sys CA CB} {ops : List System.Op} (h : System.run ca cb linked {} ops = some s) (ha : Resting s.a) (hb : Resting s.b)
    (hr : ∀ c, (s.a.out c).length = (s.b.arrived c).length) (hl : ∀ c, (s.b.out c).length = (s.a.arrived c).length) :
    FairSys ca cb linked (walk (System.step ca cb linked) {} ops) (fun n => ops[n]?) := by
  have hc := chain_of_run h
  refine ⟨walk_exec hc, fairSide_walk hc (cfg := ca) ha ?_, fairSide_walk hc (cfg := cb) hb ?_, fun c => weakWhile_of_strong (walk_strong hc ?_), fun c => weakWhile_of_strong (walk_strong hc ?_)⟩
  · intro o y hy
    simp only [System.step] at hy
    split at hy
    · obtain ⟨x, h1, _⟩ := Option.map_eq_some_iff.1 hy; exact ⟨x, h1⟩
    · cases hy
  · intro o y hy
    simp only [System.step] at hy
    split at hy
    · obtain ⟨x, h1, _⟩ := Option.map_eq_some_iff.1 hy; exact ⟨x, h1⟩
    · cases hy
  · rintro ⟨o, y, rfl, hy⟩
    simp only [System.step, ← hr c] at hy
    simp at hy
  · rintro ⟨o, y, rfl, hy⟩
    simp only [System.step, ← hl c] at hy
    simp at hy

/-- What has come between a request and its answer does not go away. -/
theorem givenUp_step {s s' : System.Sys CA CB} {op : System.Op} {r : Nat} {q : Req} (h : GivenUp s r q) (hs : System.step ca cb linked s op = some s') :
    GivenUp s' r q := by
  have ended : ∀ {C : Type} {cfg : Config C} {s s' : State C} {o : Endpoint.Op} {c : Nat}, ¬ Receiving s c → StepR cfg s o s' → ¬ Receiving s' c := by
    intro C cfg s s' o c h hs h'
    apply h
    intro l hl
    refine h' l ?_
    cases hs
    all_goals try exact hl
    all_goals simp only [upd_apply]
    all_goals grind
  rcases System.step_cases hs with ⟨o, h1, h2, _⟩ | ⟨o, h1, h2, _⟩
  · have hr := stepR_of_step h1
    rcases h with ⟨q', hq', hp⟩ | h | h | h
    · left
      generalize s'.a = a' at *
      cases hr
      all_goals try exact ⟨q', hq', hp⟩
      all_goals simp only [upd_apply]
      all_goals grind [Req.alive]
    · exact .inr (.inl (ended h hr))
    · rw [← h2] at h; exact .inr (.inr (.inl h))
    · rw [← h2] at h; exact .inr (.inr (.inr h))
  · have hr := stepR_of_step h1
    rcases h with h | h | h | ⟨t, k, hk, hkc, hke, hh⟩
    · rw [← h2] at h; exact .inl h
    · rw [← h2] at h; exact .inr (.inl h)
    · exact .inr (.inr (.inl (ended h hr)))
    · refine .inr (.inr (.inr ?_))
      have hph : k.phase = .crashed ∨ ∃ res, k.phase = .cleaning res false ∨ k.phase = .done res false := by
        apply Classical.byContradiction
        intro hn
        exact hh ⟨fun h => hn (.inl h), fun res => ⟨fun h => hn (.inr ⟨res, .inl h⟩), fun h => hn (.inr ⟨res, .inr h⟩)⟩⟩
      have : ∃ k', s'.b.tasks t = some k' ∧ k'.conn = k.conn ∧ k'.event = k.event ∧ (k'.phase = .crashed ∨ ∃ res, k'.phase = .cleaning res false ∨ k'.phase = .done res false) := by
        generalize s'.b = b' at *
        cases hr
        all_goals try exact ⟨k, hk, rfl, rfl, hph⟩
        all_goals simp only [upd_apply]
        all_goals grind
      obtain ⟨k', g1, g2, g3, g4⟩ := this
      refine ⟨t, k', g1, g2.trans hkc, g3.trans hke, fun hh => ?_⟩
      rcases g4 with g4 | ⟨res, g4 | g4⟩
      · exact hh.1 g4
      · exact (hh.2 res).1 g4
      · exact (hh.2 res).2 g4

theorem givenUp_later {σ : Nat → System.Sys CA CB} {op : Nat → Option System.Op} (E : Execution (System.step ca cb linked) {} σ op) {n m : Nat} (hm : n ≤ m)
    {r : Nat} {q : Req} (h : GivenUp (σ n) r q) : GivenUp (σ m) r q := by
  induction hm with
  | refl => exact h
  | @step m _ ih =>
    rcases System.exec_step E m with h | ⟨o, _, h⟩
    · rw [h]; exact ih
    · exact givenUp_step ih h

end

/-- After `opsBehind` (the receive loop of the second side is blocked behind a full channel): the stream is read, both handlers return, and everything
arrives. -/
def opsOut : List System.Op :=
  opsBehind ++
  [.right (.recv 0), .right (.deliver 0 0), .right (.take 0 5)] ++ (List.range 8).map (fun _ => .right (.recv 0)) ++
  [.right (.handlerDone 5 (.ok [])), .right (.respond 5 21), .toLeft 0, .left (.take 0 0), .left (.deliver 0 0), .left (.recv 0), .left (.finish 0),
   .left (.handlerDone 3 (.ok [])), .left (.respond 3 20), .toRight 0, .right (.take 0 0), .right (.deliver 0 0), .right (.recv 0), .right (.finish 0)]

/-- The hypotheses of C70 can be met: there is a fair execution in which the request of the first side is pending while the receive loop of the second side
is blocked (and the event of the request has arrived behind), and in which nothing ever comes between the request and its answer. -/
theorem demo_fair : ∃ (σ : Nat → System.Sys Nat Nat) (op : Nat → Option System.Op) (q : Req) (e : Event), FairSys demo demo (fun _ => true) σ op ∧
    (∀ m, System.DistinctIds (σ m)) ∧ (σ 42).a.reqs 0 = some q ∧ q.kind = .single ∧ q.event.referenceId = none ∧ q.phase = .waiting ∧
    (σ 42).b.loop 0 = .sending 0 e ∧ (σ 42).b.inbox 0 = [q.event] ∧ ∀ m, ¬ GivenUp (σ m) 0 q := by
  obtain ⟨s, hs⟩ : ∃ s, System.run demo demo (fun _ => true) {} opsOut = some s := ⟨_, rfl⟩
  have hre : System.Reachable demo demo (fun _ => true) s := ⟨_, hs⟩
  have ha0 : (∀ c, s.a.inbox c = []) ∧ (∀ c, s.a.loop c = .idle) ∧ (∃ q, s.a.reqs 0 = some q ∧ q.phase = .finished .replied) ∧
      (∀ r, s.a.reqs (r + 1) = none) ∧ (∃ k b, s.a.tasks 3 = some k ∧ k.phase = .cleaning (.ok b) true) ∧
      s.a.tasks 0 = none ∧ s.a.tasks 1 = none ∧ s.a.tasks 2 = none ∧ ∀ t, s.a.tasks (t + 4) = none := by
    cases hs
    exact ⟨fun c => by cases c <;> rfl, fun c => by cases c <;> rfl, ⟨_, rfl, rfl⟩, fun r => rfl, ⟨_, _, rfl, rfl⟩, rfl, rfl, rfl, fun t => rfl⟩
  have hb0 : (∀ c, s.b.inbox c = []) ∧ (∀ c, s.b.loop c = .idle) ∧ (∃ q, s.b.reqs 0 = some q ∧ q.phase = .finished .replied) ∧
      (∀ r, s.b.reqs (r + 1) = none) ∧ (∃ k b, s.b.tasks 5 = some k ∧ k.phase = .cleaning (.ok b) true) ∧
      s.b.tasks 0 = none ∧ s.b.tasks 1 = none ∧ s.b.tasks 2 = none ∧ s.b.tasks 3 = none ∧ s.b.tasks 4 = none ∧ ∀ t, s.b.tasks (t + 6) = none := by
    cases hs
    exact ⟨fun c => by cases c <;> rfl, fun c => by cases c <;> rfl, ⟨_, rfl, rfl⟩, fun r => rfl, ⟨_, _, rfl, rfl⟩, rfl, rfl, rfl, rfl, rfl, fun t => rfl⟩
  have hout : (∀ c, (s.a.out c).length = (s.b.arrived c).length) ∧ (∀ c, (s.b.out c).length = (s.a.arrived c).length) ∧
      s.a.created ++ s.b.created = [100, 101, 102, 103, 104, 105, 106, 107, 108, 50, 20, 7, 21] := by
    cases hs
    exact ⟨fun c => by cases c <;> rfl, fun c => by cases c <;> rfl, rfl⟩
  obtain ⟨a1, a2, ⟨qa, a3, a3'⟩, a4, ⟨ka, ba, a5, a5'⟩, a6, a7, a8, a9⟩ := ha0
  obtain ⟨b1, b2, ⟨qb, b3, b3'⟩, b4, ⟨kb, bb, b5, b5'⟩, b6, b7, b8, b9, b10, b11⟩ := hb0
  obtain ⟨o1, o2, o3⟩ := hout
  have ha : Resting s.a := by
    refine ⟨a1, fun c r e h => (by rw [a2] at h; cases h), ?_, ?_⟩
    · rintro (_ | r) q hq
      · rw [a3] at hq; cases hq; exact .inr ⟨_, a3'⟩
      · rw [a4] at hq; cases hq
    · rintro (_ | _ | _ | _ | t) k hk
      · rw [a6] at hk; cases hk
      · rw [a7] at hk; cases hk
      · rw [a8] at hk; cases hk
      · rw [a5] at hk; cases hk; rw [a5']; exact ⟨by simp, by simp⟩
      · rw [a9] at hk; cases hk
  have tb : ∀ t k, s.b.tasks t = some k → ∃ b, k.phase = .cleaning (.ok b) true := by
    rintro (_ | _ | _ | _ | _ | _ | t) k hk
    · rw [b6] at hk; cases hk
    · rw [b7] at hk; cases hk
    · rw [b8] at hk; cases hk
    · rw [b9] at hk; cases hk
    · rw [b10] at hk; cases hk
    · rw [b5] at hk; cases hk; exact ⟨bb, b5'⟩
    · rw [b11] at hk; cases hk
  have hb : Resting s.b := by
    refine ⟨b1, fun c r e h => (by rw [b2] at h; cases h), ?_, ?_⟩
    · rintro (_ | r) q hq
      · rw [b3] at hq; cases hq; exact .inr ⟨_, b3'⟩
      · rw [b4] at hq; cases hq
    · intro t k hk
      obtain ⟨b, h⟩ := tb t k hk
      rw [h]; exact ⟨by simp, by simp⟩
  have F := fairSys_walk hs ha hb o1 o2
  have hend : ∀ m, opsOut.length ≤ m → walk (System.step demo demo fun _ => true) {} opsOut m = s := fun m hm => walk_rest (chain_of_run hs) hm
  obtain ⟨s1, hs1⟩ : ∃ s, System.run demo demo (fun _ => true) {} opsBehind = some s := ⟨_, rfl⟩
  have h42 : walk (System.step demo demo fun _ => true) {} opsOut 42 = s1 := by
    have := walk_append (chain_of_run hs1) (opsOut.drop 42)
    exact this
  obtain ⟨q, e, g1, g2, g3, g4, g5, g6⟩ : ∃ q e, s1.a.reqs 0 = some q ∧ q.kind = .single ∧ q.event.referenceId = none ∧
      q.phase = .waiting ∧ s1.b.loop 0 = .sending 0 e ∧ s1.b.inbox 0 = [q.event] := by
    cases hs1; exact ⟨_, _, rfl, rfl, rfl, rfl, rfl, rfl⟩
  rw [← h42] at g1 g5 g6
  refine ⟨_, _, q, e, F, fun m => ?_, g1, g2, g3, g4, g5, g6, fun m hm => ?_⟩
  · have h1 := (exec_ext (System.exec_left F.run) (show m ≤ max m opsOut.length by omega)).created
    have h2 := (exec_ext (System.exec_left (System.fairSys_swap F).run) (show m ≤ max m opsOut.length by omega)).created
    simp only [System.Sys.swap] at h1 h2
    rw [hend (max m opsOut.length) (by omega)] at h1 h2
    have h3 : (s.a.created ++ s.b.created).Nodup := by rw [o3]; decide +kernel
    exact h3.sublist (h1.sublist.append h2.sublist)
  · have hm := givenUp_later F.run (show m ≤ max m opsOut.length by omega) hm
    rw [hend (max m opsOut.length) (by omega)] at hm
    rcases hm with ⟨q', hq', hp⟩ | hm | hm | ⟨t, k, hk, _, _, hm⟩
    · rw [a3] at hq'; cases hq'; rw [a3'] at hp; simp at hp
    · exact hm fun l h => by rw [a2] at h; cases h
    · exact hm fun l h => by rw [b2] at h; cases h
    · obtain ⟨b, h⟩ := tb t k hk
      exact hm ⟨by rw [h]; simp, fun res => by rw [h]; simp⟩

/-- The hypotheses of C69 can be met: a fair execution of an endpoint in which an event arrives while the receive loop is blocked. -/
example : ∃ (σ : Nat → State Nat) (op : Nat → Option Endpoint.Op) (e : Event) (x : Event), FairRun demo σ op ∧ e ∈ (σ 42).arrived 0 ∧
    e ∉ handledOn (σ 42) 0 ∧ (σ 42).loop 0 = .sending 0 x := by
  obtain ⟨σ, op, q, x, F, hd, _, _, _, _, h5, h6, _⟩ := demo_fair
  have hre := System.exec_reach F.run 42
  have harr := arrInv (System.reachable_right hre) 0
  rw [h5, h6] at harr
  refine ⟨_, _, q.event, x, System.fairRun_left (System.fairSys_swap F), by show q.event ∈ (σ 42).b.arrived 0; rw [harr]; simp, ?_, h5⟩
  intro hin
  -- the same event twice
  have h1 := (System.fifo_right hre 0 rfl).sublist
  rw [harr] at h1
  have h2 := out_ids_nodup (unique (System.reachable_left hre) (hd 42).left) 0
  have h3 : ((handledOn (σ 42).b 0 ++ held (.sending 0 x) ++ [q.event]).map (·.id)).Nodup := by
    refine h2.sublist ?_
    have := h1.map (·.id)
    rw [List.map_map] at this
    exact this
  rw [List.map_append, List.nodup_append] at h3
  exact h3.2.2 q.event.id (List.mem_map_of_mem (List.mem_append_left _ hin)) q.event.id (by simp) rfl

/-- A stream that nobody reads, and 10 replies. -/
def opsUnread : List Endpoint.Op :=
  [.request 0 (.conn 0) .stream none "q" [] 7, .sent 0] ++ (List.range 9).map (fun i => .arrive 0 (peerEvent (UInt64.ofNat (100 + i)) none "a" .response (some 7))) ++
  [.arrive 0 (peerEvent 30 none "ping" .initiator none)] ++ (List.range 8).flatMap (fun _ => [.take 0 0, .deliver 0 0]) ++ [.take 0 0]

/-- **C69 needs readers.** If one stream is not read (and neither dropped nor timed out), everything else being scheduled fairly, then an event that arrives on the
connection may never be dealt with, although the connection is never lost. -/
theorem C69_unread_stream_blocks : ∃ (σ : Nat → State Nat) (op : Nat → Option Endpoint.Op) (n : Nat) (e : Event),
    Execution (Endpoint.step demo) {} σ op ∧
    (∀ c, WeaklyFair (Endpoint.step demo) σ op fun o => ∃ t, o = .take c t) ∧
    (∀ c, StronglyFair (Endpoint.step demo) σ op fun o => ∃ t, o = .deliver c t) ∧
    (∀ r, WeaklyFair (Endpoint.step demo) σ op fun o => o = .sent r ∨ o = .sendFail r) ∧
    (∀ r, r ≠ 0 → WeaklyFair (Endpoint.step demo) σ op fun o => o = .recv r) ∧
    (∀ r, WeaklyFair (Endpoint.step demo) σ op fun o => o = .finish r) ∧
    (∀ t, WeaklyFair (Endpoint.step demo) σ op fun o => (∃ res, o = .handlerDone t res) ∨ o = .handlerPanic t) ∧
    (∀ t, WeaklyFair (Endpoint.step demo) σ op fun o => (∃ id, o = .respond t id) ∨ o = .respondFail t) ∧
    e ∈ (σ n).arrived 0 ∧ e.eventType = .initiator ∧ ∀ m, Receiving (σ m) 0 ∧ e ∉ handledOn (σ m) 0 := by
  obtain ⟨s, hs⟩ : ∃ s, Endpoint.run demo {} opsUnread = some s := ⟨_, rfl⟩
  have hc : Chain (Endpoint.step demo) {} opsUnread s := by
    have : ∀ (ops : List Endpoint.Op) (x : State Nat), Endpoint.run demo x ops = some s → Chain (Endpoint.step demo) x ops s := by
      intro ops
      induction ops with
      | nil => intro x h; exact Option.some.inj h
      | cons o ops ih =>
        intro x h
        simp only [Endpoint.run, Option.bind_eq_some_iff] at h
        obtain ⟨y, h1, h2⟩ := h
        exact ⟨y, h1, ih y h2⟩
    exact this _ _ hs
  obtain ⟨h1, h2, ⟨e, h3⟩, h4, ⟨q, h5, h6, h7⟩, h8, h9, h10, h11⟩ : (∀ c, s.inbox (c + 1) = []) ∧ (∀ c, s.loop (c + 1) = .idle) ∧ (∃ e, s.loop 0 = .sending 0 e) ∧
      (∀ r, s.reqs (r + 1) = none) ∧ (∃ q, s.reqs 0 = some q ∧ q.phase = .waiting ∧ q.buf.length = 8) ∧ (∀ t, s.tasks t = none) ∧
      s.inbox 0 = [peerEvent 30 none "ping" .initiator none] ∧
      peerEvent 30 none "ping" .initiator none ∈ s.arrived 0 ∧ peerEvent 30 none "ping" .initiator none ∉ handledOn s 0 := by
    cases hs
    refine ⟨fun c => rfl, fun c => rfl, ⟨_, rfl⟩, fun r => rfl, ⟨_, rfl, rfl, rfl⟩, fun t => rfl, rfl, by decide +kernel, by decide +kernel⟩
  have hreq : ∀ r q', s.reqs r = some q' → r = 0 ∧ q' = q := by
    rintro (_ | r) q' hq'
    · rw [h5] at hq'; cases hq'; exact ⟨rfl, rfl⟩
    · rw [h4] at hq'; cases hq'
  have nothing : ∀ o x, Endpoint.step demo s o = some x → (∀ c t, o ≠ .take c t) ∧ (∀ c t, o ≠ .deliver c t) ∧ (∀ r, o ≠ .sent r) ∧ (∀ r, o ≠ .sendFail r) ∧
      (∀ r, r ≠ 0 → o ≠ .recv r) ∧ (∀ r, o ≠ .finish r) ∧ (∀ t res, o ≠ .handlerDone t res) ∧ (∀ t, o ≠ .handlerPanic t) ∧ (∀ t id, o ≠ .respond t id) ∧
      (∀ t, o ≠ .respondFail t) := by
    intro o x ho
    have hs := stepR_of_step ho
    have hloop : ∀ c, s.loop c = .idle → s.inbox c = [] := by
      rintro (_ | c) h
      · rw [h3] at h; cases h
      · exact h1 c
    have hsend : ∀ c r e', s.loop c = .sending r e' → r = 0 := by
      rintro (_ | c) r e' h
      · rw [h3] at h; cases h; rfl
      · rw [h2] at h; cases h
    have halive : q.alive = true := by simp [Req.alive, h6]
    cases hs
    all_goals simp
    all_goals grind
  have E := walk_exec hc
  refine ⟨_, _, opsUnread.length, peerEvent 30 none "ping" .initiator none, E, fun c => weak_of_strong (walk_strong hc ?_), fun c => walk_strong hc ?_,
    fun r => weak_of_strong (walk_strong hc ?_), fun r hr => weak_of_strong (walk_strong hc ?_), fun r => weak_of_strong (walk_strong hc ?_),
    fun t => weak_of_strong (walk_strong hc ?_), fun t => weak_of_strong (walk_strong hc ?_), ?_, rfl, fun m => ⟨?_, ?_⟩⟩
  · rintro ⟨o, y, ⟨t, rfl⟩, hy⟩; exact (nothing _ y hy).1 c t rfl
  · rintro ⟨o, y, ⟨t, rfl⟩, hy⟩; exact (nothing _ y hy).2.1 c t rfl
  · rintro ⟨o, y, rfl | rfl, hy⟩
    · exact (nothing _ y hy).2.2.1 r rfl
    · exact (nothing _ y hy).2.2.2.1 r rfl
  · rintro ⟨o, y, rfl, hy⟩; exact (nothing _ y hy).2.2.2.2.1 r hr rfl
  · rintro ⟨o, y, rfl, hy⟩; exact (nothing _ y hy).2.2.2.2.2.1 r rfl
  · rintro ⟨o, y, ⟨res, rfl⟩ | rfl, hy⟩
    · exact (nothing _ y hy).2.2.2.2.2.2.1 t res rfl
    · exact (nothing _ y hy).2.2.2.2.2.2.2.1 t rfl
  · rintro ⟨o, y, ⟨id, rfl⟩ | rfl, hy⟩
    · exact (nothing _ y hy).2.2.2.2.2.2.2.2.1 t id rfl
    · exact (nothing _ y hy).2.2.2.2.2.2.2.2.2 t rfl
  · rw [walk_rest hc (Nat.le_refl _)]; exact h10
  · intro l hl
    have : (walk (Endpoint.step demo) {} opsUnread (max m opsUnread.length)).loop 0 = .ended l := by
      refine exec_keeps E (P := fun s => s.loop 0 = .ended l) hl ?_ (show m ≤ max m opsUnread.length by omega)
      intro k o _ hk hs
      generalize walk (Endpoint.step demo) {} opsUnread (k + 1) = s' at *
      cases hs
      all_goals try exact hk
      all_goals simp only [upd_apply]
      all_goals grind
    rw [walk_rest hc (by omega), h3] at this
    cases this
  · intro hin
    have := (handledOn_prefix (exec_ext E (show m ≤ max m opsUnread.length by omega)) 0).subset hin
    rw [walk_rest hc (by omega)] at this
    exact h11 this

end Bromine.Props
