import Verif.Lemmas.FairBounded
/-
C98: what must happen over connections of limited capacity, under fair scheduling.
-/
namespace Bromine.Props
open Endpoint Spec

section
variable {CA CB : Type} {ca : Config CA} {cb : Config CB} {linked : Nat → Bool} {roomR roomL : Nat → List Event → Event → Bool}
  {σ : Nat → System.Sys CA CB} {op : Nat → Option System.Op}

/-- **C98: there is room again and again.** In every fair execution of two endpoints joined by connections of limited capacity, in which the second side keeps reading connection `c`: at
any time there is a later time at which the first side can write on `c` whatever it could write if there were no limit. -/
theorem C98_room_again_and_again (F : FairBounded ca cb linked roomR roomL σ op) (hl : ∀ c, linked c = true) (hd : ∀ m, System.DistinctIds (σ m))
    (hroom : RoomByLoad roomR) {c : Nat} (n : Nat) (hrec : ∀ m, n ≤ m → Receiving (σ m).b c) :
    ∃ m, n ≤ m ∧ ∀ o x, System.step ca cb linked (σ m) (.left o) = some x → x.a.out c ≠ (σ m).a.out c →
      Bounded.step ca cb linked roomR roomL (σ m) (.left o) = some x := by
  obtain ⟨m, hm, hfree⟩ := Bounded.room_comes F hl hd hroom hrec
  refine ⟨m, hm, fun o x hx hw => ?_⟩
  simp only [Bounded.step, hx, Option.bind_some]
  simp only [System.step] at hx
  split at hx
  · obtain ⟨a', h1, rfl⟩ := Option.map_eq_some_iff.1 hx
    rcases writes_at h1 c with h2 | ⟨h2, y, h3⟩
    · exact absurd h2 hw
    · simp [Bounded.fits, h2, h3, hfree]
  · cases hx

/-- **C98: fair executions with limited capacity are fair.** If all connections are read on both sides, then an execution with limited capacity, in which nobody who can write is passed over for ever and all
replies are read, is a fair execution of two endpoints whose connections have no limit: what such executions do (C69, C70), it does. -/
theorem C98_fair (F : FairBounded ca cb linked roomR roomL σ op) (hl : ∀ c, linked c = true) (hd : ∀ m, System.DistinctIds (σ m))
    (hR : RoomByLoad roomR) (hL : RoomByLoad roomL) (hrec : ∀ m c, Receiving (σ m).a c ∧ Receiving (σ m).b c) : FairSys ca cb linked σ op :=
  Bounded.fairSys F hl hd hR hL (fun m c => (hrec m c).1) (fun m c => (hrec m c).2)

/-- **C98: what is emitted is dealt with.** For this it is enough that the second side keeps reading the connection: whatever has been written is dealt with by the second side in its place, whether or not
anything it writes gets through. -/
theorem C98_emitted_is_dealt_with (F : FairBounded ca cb linked roomR roomL σ op) (hl : ∀ c, linked c = true) (hd : ∀ m, System.DistinctIds (σ m)) {c n i : Nat} {x : OutEntry}
    (hx : ((σ n).a.out c)[i]? = some x) : ∃ m, n ≤ m ∧ (¬ Receiving (σ m).b c ∨ (handledOn (σ m).b c)[i]? = some x.event) := by
  by_cases hrec : ∃ m, n ≤ m ∧ ¬ Receiving (σ m).b c
  · obtain ⟨m, hm, h⟩ := hrec
    exact ⟨m, hm, .inl h⟩
  have hrec : ∀ m, n ≤ m → Receiving (σ m).b c := fun m hm => Classical.byContradiction fun h => hrec ⟨m, hm, h⟩
  have E := Bounded.exec_system F.run
  have hilt := (List.getElem?_eq_some_iff.1 hx).1
  obtain ⟨m1, hm1, h1⟩ := System.all_arrive_of E (c := c) (by
    intro k hk
    exact F.toRight c k fun m hm => ⟨(hk m hm).1, by
      obtain ⟨o, s', rfl, h⟩ := (hk m hm).2
      exact ⟨_, s', rfl, Bounded.carry_step h⟩⟩) (hl c) n (i + 1) hilt hrec
  obtain ⟨m2, hm2, h2⟩ := Bounded.second_handles F hl hd (n := m1) (fun m hm => hrec m (by omega)) (i + 1) h1
  refine ⟨m2, by omega, .inr ?_⟩
  have hre := System.exec_reach E m2
  obtain ⟨l1, e1⟩ := handled_arrived (System.reachable_right hre) c
  obtain ⟨l2, e2⟩ := System.fifo_right hre c (hl c)
  obtain ⟨l3, e3⟩ := (exec_ext (System.exec_left E) (show n ≤ m2 by omega)).out c
  have h3 : ((σ m2).a.out c)[i]? = some x := by
    have e3 : (σ n).a.out c ++ l3 = (σ m2).a.out c := e3
    rw [← e3, List.getElem?_append_left hilt]; exact hx
  have h4 : (((σ m2).a.out c).map (·.event))[i]? = some x.event := by simp [h3]
  rw [← e2, ← e1, List.append_assoc, List.getElem?_append_left (by omega)] at h4
  exact h4

/-- A request on a connection that is read by both sides is served. -/
theorem bounded_serving (F : FairBounded ca cb linked roomR roomL σ op) (hl : ∀ c, linked c = true) (hd : ∀ m, System.DistinctIds (σ m))
    (hR : RoomByLoad roomR) (hL : RoomByLoad roomL) {r n : Nat} {q : Req} (hq : (σ n).a.reqs r = some q) (W : ∀ m, n ≤ m → Way ca cb linked r q (σ m)) :
    Serving ca cb linked σ op r q n := by
  have G := Bounded.fair_swap F
  refine ⟨Bounded.exec_system F.run, Bounded.reads_left F r, Bounded.finishes_left F r, Bounded.written_left F hl hd hR hq fun m hm => (W m hm).recB,
    fun k i x hk hx => ?_, fun k i x hk hx => ?_, fun k t j hk hj hc => ?_⟩
  · obtain ⟨m, hm, h | h⟩ := C98_emitted_is_dealt_with F hl hd hx
    · exact absurd (W m (by omega)).recB h
    · exact ⟨m, hm, h⟩
  · obtain ⟨m, hm, h | h⟩ := C98_emitted_is_dealt_with G hl (fun m => (hd m).swap) hx
    · exact absurd (W m (by omega)).recA h
    · exact ⟨m, hm, h⟩
  · exact Bounded.task_left G hl (fun m => (hd m).swap) hL hj fun m hm => by rw [hc]; exact (W m (by omega)).recA

/-- **C98: `await_reply` completes.** In every fair execution over connections of limited capacity, an `await_reply` made with the connection's context returns
exactly one event, which refers to the request - unless its own connection is no longer read by one of the sides, it times out, is dropped or cannot be written, or the handler panics or cannot write
its answer. Other connections may be stuck for ever. -/
theorem C98_await_reply_completes (F : FairBounded ca cb linked roomR roomL σ op) (hl : ∀ c, linked c = true) (hd : ∀ m, System.DistinctIds (σ m))
    (hR : RoomByLoad roomR) (hL : RoomByLoad roomL) {r n : Nat} {q : Req}
    (hq : (σ n).a.reqs r = some q) (hkind : q.kind = .single) (hnoref : q.event.referenceId = none) :
    ∃ m, n ≤ m ∧ (GivenUp (σ m) r q ∨ ∃ q' e, (σ m).a.reqs r = some q' ∧ q'.event = q.event ∧ q'.phase = .finished .replied ∧ q'.popped = [e] ∧
      e.referenceId = some q.event.id) :=
  await_of (Bounded.exec_system F.run) hl hd hq hkind hnoref fun W => bounded_serving F hl hd hR hL hq W

/-- **C98: `stream_replies` gets to the answer of the handler.** The same for a stream. -/
theorem C98_stream_completes (F : FairBounded ca cb linked roomR roomL σ op) (hl : ∀ c, linked c = true) (hd : ∀ m, System.DistinctIds (σ m))
    (hR : RoomByLoad roomR) (hL : RoomByLoad roomL) {r n : Nat} {q : Req}
    (hq : (σ n).a.reqs r = some q) (hkind : q.kind = .stream) (hnoref : q.event.referenceId = none) :
    ∃ m, n ≤ m ∧ (GivenUp (σ m) r q ∨ ∃ q', (σ m).a.reqs r = some q' ∧ q'.event = q.event ∧
      ((q'.phase = .finished .replied ∧ ∃ l e, q'.popped = l ++ [e] ∧ e.eventType = .end) ∨ ∃ e ∈ q'.popped, e.eventType = .error)) :=
  stream_of (Bounded.exec_system F.run) hl hd hq hkind hnoref fun W => bounded_serving F hl hd hR hL hq W

/-- **C98: every handler gets to write its answer.** In the same executions, unless the second side stops reading the connection: every handler task of the first side panics, fails to write its answer, or
has written exactly one final answer to its event. -/
theorem C98_every_task_ends (F : FairBounded ca cb linked roomR roomL σ op) (hl : ∀ c, linked c = true) (hd : ∀ m, System.DistinctIds (σ m))
    (hR : RoomByLoad roomR) {t n : Nat} {k : Endpoint.Task CA} (hk : (σ n).a.tasks t = some k) :
    ∃ m, n ≤ m ∧ (¬ Receiving (σ m).b k.conn ∨ ∃ k', (σ m).a.tasks t = some k' ∧ k'.event = k.event ∧ k'.conn = k.conn ∧
      (¬ Healthy k' ∨ ∃ res a, IsAnswer ca.fmtDebug k.event res a ∧ emittedBy (σ m).a k.conn (.final t) = [a])) := by
  by_cases hrec : ∃ m, n ≤ m ∧ ¬ Receiving (σ m).b k.conn
  · obtain ⟨m, hm, h⟩ := hrec
    exact ⟨m, hm, .inl h⟩
  · obtain ⟨m, hm, h⟩ := Bounded.task_left F hl hd hR hk fun m hm => Classical.byContradiction fun h => hrec ⟨m, hm, h⟩
    exact ⟨m, hm, .inr h⟩

/-- A connection that holds so many events has room by load. -/
theorem holds_load {k : Nat} (h : 0 < k) : RoomByLoad (holds k) := fun _ => ⟨fun _ _ _ => rfl, fun _ => by simp [holds, h]⟩

theorem bounded_chain {s s' : System.Sys CA CB} {ops : List System.Op} (h : Bounded.run ca cb linked roomR roomL s ops = some s') :
    Chain (Bounded.step ca cb linked roomR roomL) s ops s' := by
  induction ops generalizing s with
  | nil => exact Option.some.inj h
  | cons o ops ih =>
    simp only [Bounded.run, Option.bind_eq_some_iff] at h
    obtain ⟨y, h1, h2⟩ := h
    exact ⟨y, h1, ih h2⟩

/-- An endpoint rests, apart from requests that wait for room. -/
structure RestingB {CB : Type} (s : State CB) : Prop where
  inbox : ∀ c, s.inbox c = []
  loop : ∀ c r e, s.loop c ≠ .sending r e
  reqs : ∀ r q, s.reqs r = some q → q.phase = .registered ∨ (q.phase = .waiting ∧ q.buf = []) ∨ ∃ h, q.phase = .finished h
  tasks : ∀ t k, s.tasks t = some k → (∀ res, k.phase ≠ .responding res) ∧ k.phase ≠ .running

theorem RestingB.none {CB : Type} {cfg : Config CB} {s s' : State CB} (h : RestingB s) {o : Endpoint.Op} (ho : Endpoint.step cfg s o = some s') :
    (∀ c t, o ≠ .take c t) ∧ (∀ c t, o ≠ .deliver c t) ∧ (∀ r, o ≠ .recv r) ∧ (∀ r, o ≠ .finish r) ∧
    (∀ t res, o ≠ .handlerDone t res) ∧ (∀ t, o ≠ .handlerPanic t) ∧ (∀ t id, o ≠ .respond t id) := by
  have hs := stepR_of_step ho
  have h1 := h.inbox
  have h2 := h.loop
  have h3 := h.reqs
  have h4 := h.tasks
  cases hs
  all_goals simp
  all_goals grind

theorem fairSideB_walk {S O CB : Type} {step : S → O → Option S} {s s' : S} {ops : List O} (h : Chain step s ops s') {lift : Endpoint.Op → O} {cfg : Config CB}
    {x : State CB} (hx : RestingB x) (hlift : ∀ o y, step s' (lift o) = some y → ∃ x', Endpoint.step cfg x o = some x') (hsent : ∀ r, step s' (lift (.sent r)) = none) :
    FairSideB step (walk step s ops) (fun n => ops[n]?) lift := by
  have no : ∀ o y, step s' (lift o) = some y → _ := fun o y hy => (hx.none (hlift o y hy).choose_spec)
  refine ⟨fun c => weak_of_strong (walk_strong h ?_), fun c => walk_strong h ?_, fun r => weak_of_strong (walk_strong h ?_),
    fun r => weak_of_strong (walk_strong h ?_), fun t => weak_of_strong (walk_strong h ?_), fun r n hn => ?_, fun t n hn => ?_⟩
  · rintro ⟨o, y, ⟨t, rfl⟩, hy⟩; exact (no _ y hy).1 c t rfl
  · rintro ⟨o, y, ⟨t, rfl⟩, hy⟩; exact (no _ y hy).2.1 c t rfl
  · rintro ⟨o, y, rfl, hy⟩; exact (no _ y hy).2.2.1 r rfl
  · rintro ⟨o, y, rfl, hy⟩; exact (no _ y hy).2.2.2.1 r rfl
  · rintro ⟨o, y, ⟨res, rfl⟩ | rfl, hy⟩
    · exact (no _ y hy).2.2.2.2.1 t res rfl
    · exact (no _ y hy).2.2.2.2.2.1 t rfl
  · obtain ⟨m, hm, o, y, rfl, hy⟩ := hn (max n ops.length) (by omega)
    rw [walk_rest h (by omega), hsent] at hy
    cases hy
  · obtain ⟨m, hm, o, y, ⟨id, rfl⟩, hy⟩ := hn (max n ops.length) (by omega)
    rw [walk_rest h (by omega)] at hy
    exact absurd rfl ((no _ y hy).2.2.2.2.2.2 t id)

theorem walk_while {S O : Type} {step : S → O → Option S} {s s' : S} {ops : List O} (h : Chain step s ops s') {R : S → Prop} {C : O → Prop} (hC : R s' → ¬ Possible step s' C) :
    WeaklyFairWhile step (walk step s ops) (fun n => ops[n]?) R C := by
  intro n hn
  have := hn (max n ops.length) (by omega)
  rw [walk_rest h (by omega)] at this
  exact absurd this.2 (hC this.1)

/-- A run after which both sides rest, apart from requests for which there is no room, and everything written to a side that reads has arrived, can be continued to a fair execution. -/
theorem fairBounded_walk {s : System.Sys CA CB} {ops : List System.Op} (h : Bounded.run ca cb linked roomR roomL {} ops = some s) (ha : RestingB s.a) (hb : RestingB s.b)
    (hsa : ∀ r, Bounded.step ca cb linked roomR roomL s (.left (.sent r)) = none) (hsb : ∀ r, Bounded.step ca cb linked roomR roomL s (.right (.sent r)) = none)
    (hr : ∀ c, Receiving s.b c → (s.a.out c).length = (s.b.arrived c).length) (hl : ∀ c, Receiving s.a c → (s.b.out c).length = (s.a.arrived c).length) :
    FairBounded ca cb linked roomR roomL (walk (Bounded.step ca cb linked roomR roomL) {} ops) (fun n => ops[n]?) := by
  have hc := bounded_chain h
  refine ⟨walk_exec hc, fairSideB_walk hc (cfg := ca) ha ?_ hsa, fairSideB_walk hc (cfg := cb) hb ?_ hsb, fun c => walk_while hc fun hrec => ?_, fun c => walk_while hc fun hrec => ?_⟩
  · intro o y hy
    have hy := Bounded.step_system hy
    simp only [System.step] at hy
    split at hy
    · obtain ⟨x, h1, _⟩ := Option.map_eq_some_iff.1 hy; exact ⟨x, h1⟩
    · cases hy
  · intro o y hy
    have hy := Bounded.step_system hy
    simp only [System.step] at hy
    split at hy
    · obtain ⟨x, h1, _⟩ := Option.map_eq_some_iff.1 hy; exact ⟨x, h1⟩
    · cases hy
  · rintro ⟨o, y, rfl, hy⟩
    have hy := Bounded.step_system hy
    simp only [System.step, ← hr c hrec] at hy
    simp at hy
  · rintro ⟨o, y, rfl, hy⟩
    have hy := Bounded.step_system hy
    simp only [System.step, ← hl c hrec] at hy
    simp at hy

end

/-- A receive loop that has ended stays so. -/
theorem ended_later {C : Type} {cfg : Config C} {σ : Nat → State C} {op : Nat → Option Endpoint.Op} (E : Execution (Endpoint.step cfg) {} σ op) {c n m : Nat} (hm : n ≤ m)
    {l : Option Event} (h : (σ n).loop c = .ended l) : (σ m).loop c = .ended l := by
  refine exec_keeps E (P := fun s => s.loop c = .ended l) h ?_ hm
  intro m o _ hl hs
  generalize σ (m + 1) = s' at *
  cases hs
  all_goals try exact hl
  all_goals simp only [upd_apply]
  all_goals grind

/-- The second side stops reading connection 1, on which the first emits an event and then makes a request that will wait for room for ever. On connection 0 the first side emits an event, and a request
waits for room; then the second side reads and handles both, and its answers arrive one after the other. -/
def tightOps : List System.Op :=
  [.right (.readEnd 1), .left (.emit (.conn 1) none "ping" [] 5), .left (.request 1 (.conn 1) .single none "ping" [] 6),
   .left (.emit (.conn 0) none "ping" [] 1), .left (.request 0 (.conn 0) .single none "ping" [] 2), .toRight 0, .right (.take 0 0), .left (.sent 0), .toRight 0,
   .right (.take 0 1), .right (.handlerDone 0 (.ok [])), .right (.handlerDone 1 (.ok [])), .right (.respond 0 3), .toLeft 0, .left (.take 0 9), .right (.respond 1 4), .toLeft 0,
   .left (.take 0 9), .left (.deliver 0 9), .left (.recv 0), .left (.finish 0)]

/-- The hypotheses of C98 can be met: a fair execution with connections that hold one event, in which at some time a request cannot be written because there is no room (it could, without
the limit), and its connection is always read, while on another connection a request waits for ever. -/
example : ∃ (σ : Nat → System.Sys Nat Nat) (op : Nat → Option System.Op) (q : Req), FairBounded demo demo (fun _ => true) (holds 1) (holds 1) σ op ∧
    (∀ m, System.DistinctIds (σ m)) ∧ (∀ m, Receiving (σ m).a q.conn ∧ Receiving (σ m).b q.conn) ∧
    (∀ m, 21 ≤ m → ∃ q', (σ m).a.reqs 1 = some q' ∧ q'.phase = .registered) ∧ (σ 5).a.reqs 0 = some q ∧ q.kind = .single ∧
    q.event.referenceId = none ∧ q.phase = .registered ∧ Bounded.step demo demo (fun _ => true) (holds 1) (holds 1) (σ 5) (.left (.sent 0)) = none ∧
    (System.step demo demo (fun _ => true) (σ 5) (.left (.sent 0))).isSome := by
  obtain ⟨s, hs⟩ : ∃ s, Bounded.run demo demo (fun _ => true) (holds 1) (holds 1) {} tightOps = some s := ⟨_, rfl⟩
  have ha0 : (∀ c, s.a.inbox c = []) ∧ (∀ c, s.a.loop c = .idle) ∧ (∃ q, s.a.reqs 0 = some q ∧ q.phase = .finished .replied) ∧ (∃ q, s.a.reqs 1 = some q ∧ q.phase = .registered) ∧
      (∀ r, s.a.reqs (r + 2) = none) ∧ ∀ t, s.a.tasks t = none := by
    cases hs
    exact ⟨fun c => by rcases c with _ | _ | c <;> rfl, fun c => by rcases c with _ | _ | c <;> rfl, ⟨_, rfl, rfl⟩, ⟨_, rfl, rfl⟩, fun r => rfl, fun t => rfl⟩
  have hb0 : (∀ c, s.b.inbox c = []) ∧ (s.b.loop 0 = .idle) ∧ (∀ l, s.b.loop 1 = .ended l ↔ l = none) ∧ (∀ c, s.b.loop (c + 2) = .idle) ∧ (∀ r, s.b.reqs r = none) ∧
      (∃ k b, s.b.tasks 0 = some k ∧ k.phase = .cleaning (.ok b) true) ∧
      (∃ k b, s.b.tasks 1 = some k ∧ k.phase = .cleaning (.ok b) true) ∧ ∀ t, s.b.tasks (t + 2) = none := by
    cases hs
    exact ⟨fun c => by rcases c with _ | _ | c <;> rfl, rfl, fun l => ⟨fun h => by cases h; rfl, fun h => by rw [h]; rfl⟩, fun c => rfl, fun r => rfl, ⟨_, _, rfl, rfl⟩, ⟨_, _, rfl, rfl⟩, fun t => rfl⟩
  have hout : ((s.a.out 0).length = (s.b.arrived 0).length) ∧ (∀ c, (s.a.out (c + 2)).length = (s.b.arrived (c + 2)).length) ∧ (∀ c, (s.b.out c).length = (s.a.arrived c).length) ∧
      s.a.created ++ s.b.created = [5, 6, 1, 2, 3, 4] := by
    cases hs
    exact ⟨rfl, fun c => rfl, fun c => by rcases c with _ | _ | c <;> rfl, rfl⟩
  have hsent : (∀ r, Bounded.step demo demo (fun _ => true) (holds 1) (holds 1) s (.left (.sent r)) = none) ∧
      ∀ r, Bounded.step demo demo (fun _ => true) (holds 1) (holds 1) s (.right (.sent r)) = none := by
    cases hs
    exact ⟨fun r => by rcases r with _ | _ | r <;> rfl, fun r => rfl⟩
  obtain ⟨a1, a2, ⟨qa, a3, a3'⟩, ⟨qb, a6, a6'⟩, a4, a5⟩ := ha0
  obtain ⟨b1, b2, b2', b2'', b3, ⟨kb, bb, b4, b4'⟩, ⟨kc, bc, b5, b5'⟩, b6⟩ := hb0
  have ha : RestingB s.a := by
    refine ⟨a1, fun c r e h => (by rw [a2] at h; cases h), ?_, fun t k hk => (by rw [a5] at hk; cases hk)⟩
    rintro (_ | _ | r) q hq
    · rw [a3] at hq; cases hq; exact .inr (.inr ⟨_, a3'⟩)
    · rw [a6] at hq; cases hq; exact .inl a6'
    · rw [a4] at hq; cases hq
  have hb : RestingB s.b := by
    refine ⟨b1, ?_, fun r q hq => (by rw [b3] at hq; cases hq), ?_⟩
    · rintro (_ | _ | c) r e h
      · rw [b2] at h; cases h
      · rw [(b2' none).2 rfl] at h; cases h
      · rw [b2''] at h; cases h
    rintro (_ | _ | t) k hk
    · rw [b4] at hk; cases hk; rw [b4']; exact ⟨by simp, by simp⟩
    · rw [b5] at hk; cases hk; rw [b5']; exact ⟨by simp, by simp⟩
    · rw [b6] at hk; cases hk
  have F := fairBounded_walk hs ha hb hsent.1 hsent.2 (by
    rintro (_ | _ | c) hrec
    · exact hout.1
    · exact absurd ((b2' none).2 rfl) (hrec none)
    · exact hout.2.1 c) (fun c _ => hout.2.2.1 c)
  have E := Bounded.exec_system F.run
  have hend : ∀ m, tightOps.length ≤ m → walk (Bounded.step demo demo (fun _ => true) (holds 1) (holds 1)) {} tightOps m = s := fun m hm => walk_rest (bounded_chain hs) hm
  obtain ⟨q, hqc, h2⟩ : ∃ q, q.conn = 0 ∧ (walk (Bounded.step demo demo (fun _ => true) (holds 1) (holds 1)) {} tightOps 5).a.reqs 0 = some q ∧ q.kind = .single ∧ q.event.referenceId = none ∧
      q.phase = .registered ∧ Bounded.step demo demo (fun _ => true) (holds 1) (holds 1) (walk (Bounded.step demo demo (fun _ => true) (holds 1) (holds 1)) {} tightOps 5)
        (.left (.sent 0)) = none ∧
      (System.step demo demo (fun _ => true) (walk (Bounded.step demo demo (fun _ => true) (holds 1) (holds 1)) {} tightOps 5) (.left (.sent 0))).isSome :=
    ⟨_, rfl, rfl, rfl, rfl, rfl, rfl, rfl⟩
  refine ⟨_, _, q, F, fun m => ?_, fun m => ⟨fun l h => ?_, fun l h => ?_⟩, fun m hm => ⟨qb, by rw [hend m hm]; exact a6, a6'⟩, h2⟩
  · have h1 := (exec_ext (System.exec_left E) (show m ≤ max m tightOps.length by omega)).created
    have h2 := (exec_ext (System.exec_left (System.exec_swap E)) (show m ≤ max m tightOps.length by omega)).created
    simp only [System.Sys.swap] at h1 h2
    rw [hend (max m tightOps.length) (by omega)] at h1 h2
    have h3 : (s.a.created ++ s.b.created).Nodup := by rw [hout.2.2.2]; decide +kernel
    exact h3.sublist (h1.sublist.append h2.sublist)
  · have := ended_later (System.exec_left E) (show m ≤ max m tightOps.length by omega) h
    simp only at this
    rw [hend (max m tightOps.length) (by omega), a2] at this
    cases this
  · have := ended_later (System.exec_left (System.exec_swap E)) (show m ≤ max m tightOps.length by omega) h
    simp only [System.Sys.swap] at this
    rw [hend (max m tightOps.length) (by omega), hqc, b2] at this
    cases this

end Bromine.Props
