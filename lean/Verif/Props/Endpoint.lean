import Verif.Lemmas.EndpointFresh
import Verif.Lemmas.EndpointTask
/-
C20-C29, C34, C36, C47 (one side), C51: replies, handlers and the receive loop of one endpoint, under every
interleaving of its connections, requests, handlers and emitters, and every behaviour of its peers.
-/
namespace Bromine.Props
open Endpoint Spec

section
variable {CB : Type} {cfg : Config CB}

/-! ### Examples used to show that hypotheses can be met -/

/-- Handlers: `0` the default error handler, `1` for "ping", `2` for "ping" in namespace "ns". Every connection has
its own listener map, as on a server. -/
def demo : Config Nat where
  global := { callbacks := [("error", 0), ("ping", 1)] }
  namespaces := [("ns", { name := "ns", handler := { callbacks := [("ping", 2)] } })]
  group := fun c => c
  client := fun c => c = 0
  isDefaultError := fun cb => cb = 0
  fmtDebug := fun _ => "failed"

/-- The same, as a pooled client: the connections share one listener map. -/
def demoPool : Config Nat := { demo with group := fun _ => 0, client := fun _ => true }

/-- An event from the peer. -/
def peerEvent (id : UInt64) (ns : Option String) (name : String) (ty : EventType) (ref : Option UInt64) : Event :=
  { header := { id := id, eventType := ty, refId := ref, ns := ns, name := name }, data := [] }

/-- Request 0 with id 7 is registered and written on connection 0. -/
def opsRequest (kind : ReqKind) : List Op := [.request 0 (.conn 0) kind none "q" [] 7, .sent 0]

/-! ### C20 replies are correlated -/

theorem handled_mem {s : State CB} {x : Entry} (hx : x ∈ s.processed) : x.event ∈ handledOn s x.conn := by
  simp only [handledOn, List.mem_map, List.mem_filter, decide_eq_true_eq]
  exact ⟨x, ⟨hx, rfl⟩, rfl⟩

/-- **C20.** Everything a request has received (returned by `await_reply` or yielded by the stream) refers to the
event emitted by that request, and was received from a peer on a connection sharing its listener map. -/
theorem C20_correlated {s : State CB} (h : Reachable cfg s) {r : Nat} {q : Req} (hq : s.reqs r = some q) :
    ∀ e ∈ q.popped, e.referenceId = some q.event.id ∧
      ∃ c, cfg.group c = cfg.group q.conn ∧ e ∈ s.arrived c := by
  intro e he
  have hmem : e ∈ delivered s r := by
    rw [← (reqInv h).account r q hq]; exact List.mem_append_left _ he
  simp only [delivered, List.mem_map, List.mem_filter, decide_eq_true_eq] at hmem
  obtain ⟨x, ⟨hx, hd⟩, rfl⟩ := hmem
  obtain ⟨q', h1, h2, h3⟩ := (refInv h).reply x hx r hd
  rw [hq] at h1
  cases h1
  refine ⟨h2, x.conn, h3.symm, ?_⟩
  rw [arrInv h]
  simp [handled_mem hx]

/-- C20 is not empty: two requests wait, the replies come in the other order, each gets its own. -/
example : ∃ s q0 q1, Reachable demo s ∧ s.reqs 0 = some q0 ∧ s.reqs 1 = some q1 ∧
    q0.popped = [peerEvent 21 none "a" .response (some 7)] ∧ q1.popped = [peerEvent 20 none "b" .response (some 8)] := by
  refine ⟨_, _, _, ⟨opsRequest .single ++ [.request 1 (.conn 0) .single none "q" [] 8, .sent 1,
    .arrive 0 (peerEvent 20 none "b" .response (some 8)), .arrive 0 (peerEvent 21 none "a" .response (some 7)),
    .take 0 0, .deliver 0 0, .take 0 0, .deliver 0 0, .recv 0, .recv 1], rfl⟩, rfl, rfl, rfl, rfl⟩

/-! ### C21 no reply is missed -/

/-- **C21.** Between any two moments at which a request exists, up to a moment at which it is still waiting, every
received event that refers to it was delivered to it and to nothing else. The first moment can be the registration of
the listener, which is before the request's frame is written, so no reply can be too early. -/
theorem C21_no_reply_missed {s s' : State CB} {ops : List Op} (h : Reachable cfg s) {r : Nat} {q q' : Req}
    (hq : s.reqs r = some q) (hrun : run cfg s ops = some s') (hq' : s'.reqs r = some q') (halive : q'.alive = true)
    (hfresh : FreshIds cfg s') :
    ∃ new, s'.processed = s.processed ++ new ∧ ∀ x ∈ new, answers cfg q x = true → x.dest = .reply r := by
  have hext := run_ext h hrun
  obtain ⟨new, hnew⟩ := hext.processed
  refine ⟨new, hnew.symm, fun x hx ha => ?_⟩
  obtain ⟨q1, h1, e1, e2, _, _, e5⟩ := hext.reqs r q hq
  rw [hq'] at h1
  cases h1
  obtain ⟨B, C, h1, h2, h3, h4⟩ := fresh_window (h.run hrun) hfresh r q' hq'
  have hl := ((reqInv h).late r q hq).1
  rw [← hnew, e5, List.drop_append_of_le_length hl] at h1
  have : x ∈ B ++ C := by rw [← h1]; simp [hx]
  rw [h4 halive, List.append_nil] at this
  exact h2 x this (by simpa [answers, e1, e2] using ha)

/-- **C21.** What has been delivered is there to be received: it has been received already or waits in the channel. -/
theorem C21_delivered_is_received {s : State CB} (h : Reachable cfg s) {r : Nat} {q : Req} (hq : s.reqs r = some q) :
    q.popped ++ q.buf = delivered s r := (reqInv h).account r q hq

/-- C21 applies: the reply arrives between the registration and the end of the write. -/
example : ∃ s s' q q', Reachable demo s ∧ s.reqs 0 = some q ∧ q.phase = .registered ∧
    run demo s [.arrive 0 (peerEvent 20 none "b" .response (some 7)), .take 0 0, .deliver 0 0, .sent 0] = some s' ∧
    s'.reqs 0 = some q' ∧ q'.alive = true ∧ s'.processed.length = 1 := by
  refine ⟨_, _, _, _, ⟨[.request 0 (.conn 0) .single none "q" [] 7], rfl⟩, rfl, rfl, rfl, rfl, rfl, rfl⟩

/-- FreshIds holds for states with one request and handled events of other ids. -/
example : ∃ s, run demo {} (opsRequest .stream ++ [.arrive 0 (peerEvent 9 none "ping" .initiator none), .take 0 3]) = some s ∧
    FreshIds demo s := by
  refine ⟨_, rfl, ?_, ?_⟩
  · intro r r' q q' h h' _ _
    simp only [upd_apply, setReq] at h h'
    grind
  · intro t k r q h h' _
    simp only [upd_apply, setReq] at h h'
    by_cases ht : t = 3 <;> by_cases hr : r = 0 <;> simp_all
    subst h
    subst h'
    decide

/-- **C21 is violated** if the peer uses an id that equals the id of a pending request: the end of the handler for
the peer's event removes the listener of the request (ipc/mod.rs:78), and its reply goes to a handler. -/
theorem C21_violated : ∃ (s : State Nat) (q : Req) (x : Entry), Reachable demo s ∧ s.reqs 0 = some q ∧ q.phase = .waiting ∧
    x ∈ s.processed ∧ answers demo q x = true ∧ x.dest = .handler 4 := by
  refine ⟨_, _, { conn := 0, event := peerEvent 20 none "ping" .response (some 7), dest := .handler 4 },
    ⟨opsRequest .single ++ [.arrive 0 (peerEvent 7 none "ping" .initiator none), .take 0 3,
    .handlerDone 3 (.ok []), .respond 3 8, .cleanup 3,
    .arrive 0 (peerEvent 20 none "ping" .response (some 7)), .take 0 4], rfl⟩, rfl, rfl, ?_, by decide, rfl⟩
  decide +kernel

/-! ### C22 order and completeness of reply streams -/

/-- **C22.** What a waiting request has received, followed by what waits in its channel, is exactly the sequence of
events that refer to it and were received since its registration, in arrival order, nothing lost or doubled. -/
theorem C22_complete {s : State CB} (h : Reachable cfg s) (hf : FreshIds cfg s) {r : Nat} {q : Req}
    (hq : s.reqs r = some q) (ha : q.alive = true) :
    q.popped ++ q.buf = ((s.processed.drop q.regAt).filter (answers cfg q)).map (·.event) := by
  rw [(reqInv h).account r q hq, delivered]
  obtain ⟨B, C, h1, h2, h3, h4⟩ := fresh_window h hf r q hq
  have hC := h4 ha
  subst hC
  rw [List.append_nil] at h1
  have hsplit : s.processed = s.processed.take q.regAt ++ s.processed.drop q.regAt := (List.take_append_drop _ _).symm
  have h0 : (s.processed.take q.regAt).filter (fun x => decide (x.dest = .reply r)) = [] := by
    rw [List.filter_eq_nil_iff]
    intro x hx
    simpa using ((reqInv h).late r q hq).2 x hx
  conv => lhs; rw [hsplit, List.filter_append, h0, List.nil_append]
  congr 1
  rw [h1]
  apply List.filter_congr
  intro x hx
  have hxs : x ∈ s.processed := by
    have : x ∈ s.processed.drop q.regAt := by rw [h1]; exact hx
    exact List.mem_of_mem_drop this
  have := (refInv h).reply x hxs r
  by_cases hd : x.dest = .reply r
  · obtain ⟨q', g1, g2, g3⟩ := this hd
    rw [hq] at g1
    cases g1
    simp [hd, answers, g2, g3]
  · cases hans : answers cfg q x with
    | false => simp [hd]
    | true => exact absurd (h2 x hx hans) hd

/-- **C22.** Also after its end, a request has received a prefix of the events that refer to it. -/
theorem C22_prefix {s : State CB} (h : Reachable cfg s) (hf : FreshIds cfg s) {r : Nat} {q : Req}
    (hq : s.reqs r = some q) :
    q.popped <+: ((s.processed.drop q.regAt).filter (answers cfg q)).map (·.event) := by
  have hacc := (reqInv h).account r q hq
  refine List.IsPrefix.trans (l₂ := q.popped ++ q.buf) (List.prefix_append _ _) ?_
  rw [hacc, delivered]
  obtain ⟨B, C, h1, h2, h3, h4⟩ := fresh_window h hf r q hq
  have hsplit : s.processed = s.processed.take q.regAt ++ (B ++ C) := by rw [← h1]; exact (List.take_append_drop _ _).symm
  have h0 : (s.processed.take q.regAt).filter (fun x => decide (x.dest = .reply r)) = [] := by
    rw [List.filter_eq_nil_iff]
    intro x hx
    simpa using ((reqInv h).late r q hq).2 x hx
  have hC : C.filter (fun x => decide (x.dest = .reply r)) = [] := by
    rw [List.filter_eq_nil_iff]
    intro x hx
    simpa using h3 x hx
  have hB : B.filter (fun x => decide (x.dest = .reply r)) = B.filter (answers cfg q) := by
    apply List.filter_congr
    intro x hx
    have hxs : x ∈ s.processed := by rw [hsplit]; simp [hx]
    have := (refInv h).reply x hxs r
    by_cases hd : x.dest = .reply r
    · obtain ⟨q', g1, g2, g3⟩ := this hd
      rw [hq] at g1
      cases g1
      simp [hd, answers, g2, g3]
    · cases hans : answers cfg q x with
      | false => simp [hd]
      | true => exact absurd (h2 x hx hans) hd
  conv => lhs; rw [hsplit, List.filter_append, h0, List.nil_append, List.filter_append, hC, List.append_nil, hB]
  rw [h1, List.filter_append, List.map_append]
  exact List.prefix_append _ _

/-- **C22.** Among the items received by a request, an End event can only be the last one. -/
theorem C22_end_is_last {s : State CB} (h : Reachable cfg s) {r : Nat} {q : Req} (hq : s.reqs r = some q)
    {l l' : List Event} {e : Event} (hp : q.popped = l ++ e :: l') (he : e.eventType = .end) : l' = [] := by
  have hs := (reqInv h).shape r q hq
  have main : ∀ (m : List Event) (z : Event), q.popped = m ++ [z] → (∀ e ∈ m, e.eventType ≠ .end) → l' = [] := by
    intro m z hm hne
    rw [hp] at hm
    rcases List.eq_nil_or_concat l' with hl | ⟨l'', z', hl⟩
    · exact hl
    · subst hl
      have : (l ++ e :: l'') ++ [z'] = m ++ [z] := by simpa using hm
      have := List.append_inj_left' this rfl
      exact absurd he (hne e (by rw [← this]; simp))
  have bad : ¬ ∀ e ∈ q.popped, e.eventType ≠ .end := fun hh => hh e (by rw [hp]; simp) he
  unfold Shape at hs
  split at hs
  · rw [hs] at hp; simp at hp
  · exact absurd hs.2 bad
  · obtain ⟨m, h1, h2, h3, h4⟩ := hs; exact main m _ h1 h3
  · exact absurd hs.2 bad
  · obtain ⟨m, z, h1, h2, h3, h4⟩ := hs; exact main m z h1 h3
  · exact absurd hs.2 bad

/-- **C22.** Once a request has received an End event it never receives anything again. -/
theorem C22_nothing_after_end {s s' : State CB} {ops : List Op} (h : Reachable cfg s) {r : Nat} {q q' : Req}
    (hq : s.reqs r = some q) (he : ∃ e ∈ q.popped, e.eventType = .end) (hrun : run cfg s ops = some s')
    (hq' : s'.reqs r = some q') : q'.popped = q.popped := by
  have := run_induction (P := fun s => ∃ q', s.reqs r = some q' ∧ q'.popped = q.popped) h hrun ⟨q, hq, rfl⟩ (by
    intro s op s' _ hre ⟨q1, h1, h2⟩ hs
    have hsh := (reqInv hre).shape r q1 h1
    have hw : q1.phase ≠ .waiting := by
      intro hw
      simp only [Shape, hw] at hsh
      obtain ⟨e, h3, h4⟩ := he
      exact hsh.2 e (by rw [h2]; exact h3) h4
    cases hs
    all_goals try exact ⟨q1, h1, h2⟩
    all_goals simp only [upd_apply]
    all_goals grind)
  obtain ⟨q1, h1, h2⟩ := this
  rw [hq'] at h1
  cases h1
  exact h2

/-- **C22.** A stream that ended with an item (and not by a timeout, a drop or an error) ended with an End event; an
`await_reply` receives at most one event. -/
theorem C22_ended_by_end {s : State CB} (h : Reachable cfg s) {r : Nat} {q : Req} (hq : s.reqs r = some q) :
    (q.kind = .stream → q.phase = .finished .replied → ∃ l e, q.popped = l ++ [e] ∧ e.eventType = .end) ∧
    (q.kind = .single → q.popped.length ≤ 1) := by
  have hs := (reqInv h).shape r q hq
  constructor
  · intro hk hp
    simp only [Shape, hp] at hs
    obtain ⟨m, z, h1, h2, h3, h4⟩ := hs
    exact ⟨m, z, h1, h4 hk⟩
  · intro hk
    unfold Shape at hs
    split at hs
    · simp [hs]
    · simp [hs.1 hk]
    · obtain ⟨m, h1, h2, h3, h4⟩ := hs; simp [h1, h2 hk]
    · rw [hk] at hs; cases hs.1
    · obtain ⟨m, z, h1, h2, h3, h4⟩ := hs; simp [h1, h2 hk]
    · simp [hs.1 hk]

/-- A stream with two responses and an End event; the hypotheses of the theorems above are met. -/
example : ∃ s q, Reachable demo s ∧ s.reqs 0 = some q ∧ q.kind = .stream ∧ q.phase = .finished .replied ∧
    q.popped = [peerEvent 20 none "a" .response (some 7), peerEvent 21 none "b" .response (some 7),
      peerEvent 22 none "end" .end (some 7)] := by
  refine ⟨_, _, ⟨opsRequest .stream ++ [.arrive 0 (peerEvent 20 none "a" .response (some 7)),
    .arrive 0 (peerEvent 21 none "b" .response (some 7)), .take 0 0, .deliver 0 0, .recv 0,
    .arrive 0 (peerEvent 22 none "end" .end (some 7)), .take 0 0, .deliver 0 0, .take 0 0, .deliver 0 0,
    .recv 0, .recv 0, .finish 0], rfl⟩, rfl, rfl, rfl, rfl⟩

/-! ### C24 what ended requests leave behind -/

/-- **C24.** A request that ended with its (last) reply leaves no listener, in no map. -/
theorem C24_replied_leaves_nothing {s : State CB} (h : Reachable cfg s) {r : Nat} {q : Req}
    (hq : s.reqs r = some q) (hp : q.phase = .finished .replied) : ∀ g id, s.listeners g id ≠ some r :=
  finished_unlistened h r q hq hp

/-- **C24, exactly**: the listener of a request is registered from its registration until its last reply has been received, and never else: of all ways
in which a request can end only that one removes it. -/
theorem C24_listener_iff {s : State CB} (h : Reachable cfg s) (hf : FreshIds cfg s) {r : Nat} {q : Req} (hq : s.reqs r = some q) :
    s.listeners (cfg.group q.conn) q.event.id = some r ↔ q.phase ≠ .finished .replied :=
  ⟨fun hl hp => finished_unlistened h r q hq hp _ _ hl, (fresh_listener h hf r q hq).1⟩

/-- **C24 is violated, always**: every request that timed out, failed to be written or was dropped still has its
listener registered, at every later moment. -/
theorem C24_leak {s : State CB} (h : Reachable cfg s) (hf : FreshIds cfg s) {r : Nat} {q : Req}
    (hq : s.reqs r = some q)
    (hp : q.phase = .finished .timeout ∨ q.phase = .finished .failed ∨ q.phase = .finished .dropped) :
    s.listeners (cfg.group q.conn) q.event.id = some r := by
  refine (fresh_listener h hf r q hq).1 ?_
  rcases hp with hp | hp | hp <;> simp [hp]

/-- **C24 is violated**: a late reply to such a request is given to the *global* handler of its name, whatever its
namespace and type. -/
theorem C24_late_reply {s : State CB} (h : Reachable cfg s) (hf : FreshIds cfg s) {r : Nat} {q : Req}
    (hq : s.reqs r = some q)
    (hp : q.phase = .finished .timeout ∨ q.phase = .finished .failed ∨ q.phase = .finished .dropped)
    {c t : Nat} {e : Event} {rest : List Event} (hc : cfg.group c = cfg.group q.conn) (hl : s.loop c = .idle)
    (hi : s.inbox c = e :: rest) (he : e.referenceId = some q.event.id) (ht : s.tasks t = none) :
    ∃ s' k, run cfg s [.take c t, .deliver c t] = some s' ∧ s'.tasks t = some k ∧ k.event = e ∧
      k.cb = cfg.global.callback e.name := by
  have hlis := C24_leak h hf hq hp
  have hroute : route cfg s c e = .listener r := by simp [route, he, hc, hlis]
  have hal : q.alive = false := by rcases hp with hp | hp | hp <;> simp [Req.alive, hp]
  simp only [run, step, hl, hi, hroute, Option.bind_some, upd_apply, if_true, hq, hal, spawn, ht, Bool.false_eq_true,
    if_false]
  exact ⟨_, _, rfl, by simp; rfl, rfl, rfl⟩

/-- The hypotheses of `C24_leak` and `C24_late_reply` can be met, and the effect seen: a late End event for namespace
"ns" runs the global handler 1 of "ping". -/
theorem C24_violated : ∃ (s : State Nat) (k : Endpoint.Task Nat), Reachable demo s ∧
    s.listeners 0 7 = some 0 ∧ (∃ q, s.reqs 0 = some q ∧ q.phase = .finished .timeout) ∧
    s.tasks 5 = some k ∧ k.event = peerEvent 20 (some "ns") "ping" .end (some 7) ∧ k.cb = some 1 := by
  refine ⟨_, _, ⟨opsRequest .single ++ [.timeout 0, .arrive 0 (peerEvent 20 (some "ns") "ping" .end (some 7)),
    .take 0 5, .deliver 0 5], rfl⟩, rfl, ⟨_, rfl, rfl⟩, rfl, rfl, by decide +kernel⟩

/-! ### C25 a slow stream -/

/-- **C25.** At most 8 replies wait unread in a channel. -/
theorem C25_capacity {s : State CB} (h : Reachable cfg s) {r : Nat} {q : Req} (hq : s.reqs r = some q) :
    q.buf.length ≤ 8 := (reqInv h).room r q hq

/-- **C25.** A receive loop that holds a reply can go on unless the request is still alive with
8 unread replies. -/
theorem C25_goes_on {s : State CB} (h : Reachable cfg s) {c r : Nat} {e : Event} (hl : s.loop c = .sending r e)
    {q : Req} (hq : s.reqs r = some q) (hb : q.buf.length < 8 ∨ q.alive = false) :
    ∃ t s', step cfg s (.deliver c t) = some s' ∧ s'.loop c = .idle := by
  obtain ⟨t, ht⟩ := fresh_task h
  refine ⟨t, ?_⟩
  cases ha : q.alive with
  | true =>
    have hb : q.buf.length < 8 := by simpa [ha] using hb
    simp only [step, hl, hq, ha, if_true, hb]
    exact ⟨_, rfl, by simp [setReq]⟩
  | false =>
    simp only [step, hl, hq, ha, Bool.false_eq_true, if_false, spawn, ht]
    exact ⟨_, rfl, by simp⟩

/-- **C25, exactly**: a receive loop that holds a reply can go on if and only if the request has ended or has less than 8 unread replies. -/
theorem C25_goes_on_iff {s : State CB} (h : Reachable cfg s) {c r : Nat} {e : Event} (hl : s.loop c = .sending r e) {q : Req} (hq : s.reqs r = some q) :
    (∃ t s', step cfg s (.deliver c t) = some s') ↔ q.buf.length < 8 ∨ q.alive = false := by
  refine ⟨fun ⟨t, s', hs⟩ => ?_, fun hb => ?_⟩
  · simp only [step, hl, hq] at hs
    cases ha : q.alive with
    | false => exact Or.inr rfl
    | true =>
      simp only [ha, if_true] at hs
      split at hs
      · rename_i hb; exact Or.inl hb
      · cases hs
  · obtain ⟨t, s', h1, -⟩ := C25_goes_on h hl hq hb
    exact ⟨t, s', h1⟩

/-- **C25.** A receive loop that is reading takes the next event, whatever it is. -/
theorem C25_takes {s : State CB} (h : Reachable cfg s) {c : Nat} {e : Event} {rest : List Event}
    (hl : s.loop c = .idle) (hi : s.inbox c = e :: rest) : ∃ t s', step cfg s (.take c t) = some s' := by
  obtain ⟨t, ht⟩ := fresh_task h
  refine ⟨t, ?_⟩
  simp only [step, hl, hi]
  cases route cfg s c e with
  | listener r => exact ⟨_, rfl⟩
  | discard => exact ⟨_, rfl⟩
  | handler cb =>
    simp only [spawn, ht]
    exact ⟨_, rfl⟩

/-- **C25 is violated.** If a loop holds a reply for a request with 8 unread replies, then nothing received on that
connection is dealt with until that request receives one, times out or is dropped, or the connection is stopped -
whatever else happens. -/
theorem C25_blocked {s s' : State CB} {ops : List Op} (h : Reachable cfg s) {c r : Nat} {e : Event} {q : Req}
    (hl : s.loop c = .sending r e) (hq : s.reqs r = some q) (hp : q.phase = .waiting) (hb : q.buf.length = 8)
    (hrun : run cfg s ops = some s')
    (h1 : .recv r ∉ ops) (h2 : .timeout r ∉ ops) (h3 : .drop r ∉ ops) (h4 : .abort c ∉ ops) :
    s'.loop c = .sending r e ∧ handledOn s' c = handledOn s c := by
  have := run_induction (P := fun s' => s'.loop c = .sending r e ∧ handledOn s' c = handledOn s c ∧
      ∃ q, s'.reqs r = some q ∧ q.phase = .waiting ∧ q.buf.length = 8) h hrun ⟨hl, rfl, q, hq, hp, hb⟩ (by
    intro s1 op s2 hop hre ⟨g1, g2, q1, g3, g4, g5⟩ hs
    have o1 : op ≠ .recv r := fun hh => h1 (hh ▸ hop)
    have o2 : op ≠ .timeout r := fun hh => h2 (hh ▸ hop)
    have o3 : op ≠ .drop r := fun hh => h3 (hh ▸ hop)
    have o4 : op ≠ .abort c := fun hh => h4 (hh ▸ hop)
    have g6 : q1.alive = true := by simp [Req.alive, g4]
    have key : s2.loop c = .sending r e ∧ handledOn s2 c = handledOn s1 c ∧
        ∃ q, s2.reqs r = some q ∧ q.phase = .waiting ∧ q.buf.length = 8 := by
      cases hs with
      | chanClosed r0 q0 hq0 hp0 hb0 hl0 hcl ph hph =>
        refine ⟨g1, rfl, ?_⟩
        have hne : r ≠ r0 := by
          rintro rfl
          rw [g3] at hq0; cases hq0; simp [hb0] at g5
        exact ⟨q1, by simp [hne, g3], g4, g5⟩
      | _ =>
        first
        | exact ⟨g1, rfl, q1, g3, g4, g5⟩
        | (simp only [handledOn, List.filter_append, List.map_append, upd_apply]
           refine ⟨?_, ?_, ?_⟩ <;> grind)
    exact ⟨key.1, key.2.1.trans g2, key.2.2⟩)
  exact ⟨this.1, this.2.1⟩

/-- The peer answers request 0 with `n` responses that are not read. -/
def flood : Nat → List Op
  | 0 => []
  | n + 1 => [.arrive 0 (peerEvent 20 none "a" .response (some 7)), .take 0 0, .deliver 0 0] ++ flood n

/-- `C25_blocked` is met: 8 unread replies, the ninth held by the loop, and behind it an event "ping" for which a
handler exists. -/
theorem C25_violated : ∃ (s : State Nat) (q : Req) (e : Event), Reachable demo s ∧ s.loop 0 = .sending 0 e ∧
    s.reqs 0 = some q ∧ q.phase = .waiting ∧ q.buf.length = 8 ∧
    s.inbox 0 = [peerEvent 30 none "ping" .initiator none] := by
  refine ⟨_, _, _, ⟨opsRequest .stream ++ flood 8 ++ [.arrive 0 (peerEvent 20 none "a" .response (some 7)), .take 0 0,
    .arrive 0 (peerEvent 30 none "ping" .initiator none)], rfl⟩, rfl, rfl, rfl, rfl, rfl⟩

/-! ### C26, C23 (sending side) every handled event is answered exactly once -/

/-- **C26, C23.** A handled event has been answered exactly once when its handler has finished and the answer could
be written: by the End event with the handler's response, or by the Error event with code 500 and the formatted
error; on its own connection. -/
theorem C26_answered_once {s : State CB} (h : Reachable cfg s) {t : Nat} {k : Endpoint.Task CB} (hk : s.tasks t = some k)
    {res : Except Error Bytes} (hp : k.phase = .done res true) :
    (∃ a, emittedBy s k.conn (.final t) = [a] ∧ IsAnswer cfg.fmtDebug k.event res a) ∧
    ∀ c, c ≠ k.conn → emittedBy s c (.final t) = [] := by
  constructor
  · have := finals h t k.conn
    simp only [Finals, hk, hp, and_self, if_true] at this
    obtain ⟨id, h1⟩ := this
    exact ⟨_, h1, finalEvent_isAnswer k res id⟩
  · intro c hc
    have := finals h t c
    simpa [Finals, hk, hp, hc] using this

/-- **C26.** Before its handler has returned, and if the handler panicked or the answer could not be written, an event
has no answer. -/
theorem C26_not_before {s : State CB} (h : Reachable cfg s) {t : Nat} {k : Endpoint.Task CB} (hk : s.tasks t = some k)
    (hp : k.phase = .running ∨ (∃ res, k.phase = .responding res) ∨ k.phase = .crashed ∨
      ∃ res, k.phase = .done res false) :
    ∀ c, emittedBy s c (.final t) = [] := by
  intro c
  have := finals h t c
  rcases hp with hp | ⟨res, hp⟩ | hp | ⟨res, hp⟩ <;> simpa [Finals, hk, hp] using this

theorem prefix_or_mem {α : Type} {l A B : List α} {x : α} (h : l <+: A ++ x :: B) : l <+: A ∨ x ∈ l := by
  induction A generalizing l with
  | nil =>
    cases l with
    | nil => exact .inl (List.nil_prefix)
    | cons y l =>
      rw [List.nil_append, List.cons_prefix_cons] at h
      exact .inr (by simp [h.1])
  | cons a A ih =>
    cases l with
    | nil => exact .inl (List.nil_prefix)
    | cons y l =>
      rw [List.cons_append, List.cons_prefix_cons] at h
      rcases ih h.2 with h' | h'
      · exact .inl (by rw [List.cons_prefix_cons]; exact ⟨h.1, h'⟩)
      · exact .inr (by simp [h'])

/-- **C26.** What was emitted on the connection while the handler was running (by it or by others) comes before its
answer. -/
theorem C26_answer_is_after {s s' : State CB} {ops : List Op} (h : Reachable cfg s) {t : Nat} {k : Endpoint.Task CB}
    (hk : s.tasks t = some k) (hp : k.phase = .running) (hrun : run cfg s ops = some s') {c : Nat} {a : Event}
    {A B : List OutEntry} (hout : s'.out c = A ++ { origin := .final t, event := a } :: B) : s.out c <+: A := by
  have hpre := (run_ext h hrun).out c
  rw [hout] at hpre
  rcases prefix_or_mem hpre with hA | hA
  · exact hA
  · exfalso
    have h0 := C26_not_before h hk (.inl hp) c
    simp only [emittedBy, List.map_eq_nil_iff, List.filter_eq_nil_iff] at h0
    exact h0 _ hA (by simp)

end
end Bromine.Props
