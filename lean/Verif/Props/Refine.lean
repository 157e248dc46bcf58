import Verif.Lemmas.Refine
import Verif.Props.Endpoint
import Verif.Props.Payload
/-
C68: the futures of `await_reply` and `stream_replies`, poll by poll (Model/Emit.lean), are the requests of the endpoint model (Model/Endpoint.lean): what C20-C29 say about requests they
say about these futures.
-/
namespace Bromine.Props
open Endpoint Refine Spec

section
variable {CB P : Type} {cfg : Config CB} {a : Params P}

/-- **C68, what a request does next is possible.** A request is made on a context, and its future is polled, with anything else going on in the process, also between the effects of one poll.
Whatever the future does next (insert its listener, write its event, take a reply from the channel, find it closed, run into its timeout, remove its listener) is a step that the endpoint
model allows, provided that it is truthful about the channel; the step is that of this request and has just the effect in question. -/
theorem C68_next {m : M CB P} (h : Reach cfg a m) (hg : m.gone = false) {x : Act} {rest : List Act} (ht : m.todo = x :: rest) (hx : Truthful cfg a m.s x) :
    ∃ s', Endpoint.step cfg m.s (opOf a x) = some s' ∧ Claimed cfg a m.s x s' ∧ Reach cfg a { m with s := s', todo := rest } := by
  obtain ⟨E, j⟩ := j_reach h
  obtain ⟨s', h1, h2, _⟩ := act_step j hg ht hx
  exact ⟨s', h1, h2, h.step (.act ht hx h1)⟩

/-- **C68, anything else can go on.** Between the polls of the request and between the effects of one poll, whatever else the endpoint can do is possible: events arrive and are dispatched, handlers
run, emit, answer and panic, connections come to an end, and other requests are made, sent, answered, time out and are dropped; everything but the steps of this request itself. -/
theorem C68_others {m : M CB P} (h : Reach cfg a m) {op : Endpoint.Op} {s' : State CB} (hs : Endpoint.step cfg m.s op = some s')
    (hreq : ∀ ctx kind ns name payload id, op ≠ .request a.r ctx kind ns name payload id)
    (hown : op ∉ [.sent a.r, .sendFail a.r, .recv a.r, .chanClosed a.r, .finish a.r, .timeout a.r, .drop a.r]) :
    Reach cfg a { m with s := s' } := by
  refine h.step (.other (op := op) ?_ hs)
  cases op <;> simp only [owns, decide_eq_false_iff_not] <;> rintro rfl
  · exact hreq _ _ _ _ _ _ rfl
  all_goals exact hown (by simp)

/-- **C68, nothing else happens.** What a poll does, effect by effect, is what is listed as its acts: listeners are inserted and removed, and the event written, exactly there; and what the
owner of the future is told fits: `Pending` only if nothing was taken from the channel, a reply or an item only if the channel has yielded it, and so on. -/
theorem C68_told {m : M CB P} (h : Reach cfg a m) (env : Env P) (hs : Sane env) :
    let p := m.fut.poll env
    let A := acts env m.fut p.2.1 p.2.2
    ToldRight env A p.1 ∧
    (∀ id, Effect.register id ∈ p.2.2 ↔ ∃ e, Act.register e ∈ A ∧ id = e.id) ∧
    (∀ id, Effect.unregister id ∈ p.2.2 ↔ Act.unregister id ∈ A) ∧
    (∀ e, (Effect.write e ∈ p.2.2 ∧ env.writing e = .ready (.ok ())) ↔ Act.sent e ∈ A) := by
  obtain ⟨E, j⟩ := j_reach h
  obtain ⟨_, _, _, _, _, h5⟩ := poll_spec hs j.fut
  exact h5

/-- **C68, the channel is that of the request.** An event that the future takes from its channel refers to the event that this request emits, which is the one that `emit` / `emit_to` makes
on that context, and has come from a peer on a connection of the same listener map. -/
theorem C68_replies {m : M CB P} (h : Reach cfg a m) {e : Event} {rest : List Act} (ht : m.todo = .got e :: rest) (hx : Truthful cfg a m.s (.got e)) :
    ∃ q, m.s.reqs a.r = some q ∧ q.event = ctxEvent a.ref a.ns a.name q.event.data q.event.id ∧ q.conn = a.conn ∧
      e.referenceId = some q.event.id ∧ ∃ c, cfg.group c = cfg.group a.conn ∧ e ∈ m.s.arrived c := by
  obtain ⟨E, j⟩ := j_reach h
  obtain ⟨q, rest', hq, hb⟩ := hx
  obtain ⟨k1, k2, k3, k4⟩ := j.req q hq
  have hE : Built a E := by
    refine futOk_built j.fut fun hn => ?_
    have hg : m.gone = false := by
      cases hg : m.gone with
      | false => rfl
      | true => have := j.gone hg; rw [ht] at this; cases this
    have := phRun_ne_new (j.run hg) hn
    have := phaseOfReq_new this
    rw [hq] at this
    cases this
  refine ⟨q, hq, by rw [k4]; exact hE, k2, ?_⟩
  have hmem : e ∈ delivered m.s a.r := by
    rw [← (reqInv j.re).account a.r q hq, hb]; simp
  simp only [delivered, List.mem_map, List.mem_filter, decide_eq_true_eq] at hmem
  obtain ⟨x, ⟨hx, hd⟩, rfl⟩ := hmem
  obtain ⟨q', h1, h2, h3⟩ := (refInv j.re).reply x hx a.r hd
  rw [hq] at h1
  cases h1
  refine ⟨h2, x.conn, by rw [← k2]; exact h3.symm, ?_⟩
  rw [arrInv j.re]
  simp [handled_mem hx]

/-- **C68, dropping.** A future can be dropped between two polls. Then its request is over, as a step `drop` of the endpoint, without any effect on listeners or the wire; unless it has
not registered its listener, or was over already, and then nothing happens. -/
theorem C68_drop {m : M CB P} (h : Reach cfg a m) (hg : m.gone = false) (ht : m.todo = []) :
    (∃ s', Endpoint.step cfg m.s (.drop a.r) = some s' ∧ s'.listeners = m.s.listeners ∧ s'.out = m.s.out ∧ ∃ q, s'.reqs a.r = some q ∧ q.phase = .finished .dropped) ∨
    m.s.reqs a.r = none ∨ ∃ q how, m.s.reqs a.r = some q ∧ q.phase = .finished how := by
  obtain ⟨E, j⟩ := j_reach h
  have hr := j.run hg
  rw [ht] at hr
  simp only [phRun, Option.some.injEq] at hr
  cases hq : m.s.reqs a.r with
  | none => exact Or.inr (Or.inl rfl)
  | some q =>
    cases hp : q.phase with
    | registered =>
      left
      refine ⟨setReq m.s a.r { q with phase := .finished .dropped }, by simp [Endpoint.step, hq, hp], rfl, rfl, { q with phase := .finished .dropped }, by simp [setReq, upd_apply], rfl⟩
    | waiting =>
      left
      refine ⟨setReq m.s a.r { q with phase := .finished .dropped }, by simp [Endpoint.step, hq, hp], rfl, rfl, { q with phase := .finished .dropped }, by simp [setReq, upd_apply], rfl⟩
    | closing l =>
      exfalso
      simp only [hq, phaseOfReq, hp] at hr
      have := hr.symm
      revert this
      cases m.fut with
      | reply f => simp only [phOf]; split <;> simp
      | stream f => simp only [phOf]; split <;> simp
      | items x => simp only [phOf]; split <;> (try split) <;> simp
    | finished how => exact Or.inr (Or.inr ⟨q, how, rfl, hp⟩)

/-- **C68, no reply is left lying.** If the request is waiting and there is an event in its channel, a poll in which the timer has not fired takes it and gives it to its owner: `await_reply`
is ready, the stream has an item. -/
theorem C68_taken {m : M CB P} (h : Reach cfg a m) (hg : m.gone = false) (ht : m.todo = []) {q : Req} (hq : m.s.reqs a.r = some q) (hw : q.phase = .waiting)
    {e : Event} {rest : List Event} (hb : q.buf = e :: rest) (env : Env P) (hc : env.channel = .ready (some e)) (htm : ∀ t, env.timer t = false) :
    let p := m.fut.poll env
    (∃ l, acts env m.fut p.2.1 p.2.2 = .got e :: l) ∧ Truthful cfg a m.s (.got e) ∧
    ((a.kind = .single ∧ p.1 = (match replyResult e with | .panic => .panic | r => .reply r)) ∨ (a.kind = .stream ∧ p.1 = .item (some (.ok e)))) := by
  obtain ⟨E, j⟩ := j_reach h
  have hr := j.run hg
  rw [ht] at hr
  simp only [phRun, Option.some.injEq, hq, phaseOfReq, hw] at hr
  have hsel : ∀ t, selectReply env t = .ready (.ok (some e)) := by
    intro t
    simp [selectReply, htm, hc]
  have hf := j.fut
  have htr : Truthful cfg a m.s (.got e) := ⟨q, rest, hq, hb⟩
  simp only
  refine ⟨?_, htr, ?_⟩
  · cases hm : m.fut with
    | reply f =>
      rw [hm] at hr hf
      simp only [phOf] at hr
      split at hr <;> try cases hr
      rename_i id t hfut
      cases hrr : replyResult e <;>
        simp [ReqFut.poll, ReplyFuture.poll, hfut, pollReplyBlock, pollSelect, hsel, acts, selects, writeActs, hrr]
    | stream f =>
      rw [hm] at hr
      simp only [phOf] at hr
      split at hr <;> cases hr
    | items x =>
      rw [hm] at hr hf
      simp only [phOf] at hr
      split at hr
      · rename_i u hfut
        by_cases he : e.eventType = .end <;>
          simp [ReqFut.poll, ResponseStream.pollNext, hfut, pollNextBlock, hsel, acts, selects, writeActs, he]
      · cases hr
      · rename_i hfut
        split at hr
        · rename_i hl
          by_cases he : e.eventType = .end <;>
            simp [ReqFut.poll, ResponseStream.pollNext, hfut, hl, pollNextBlock, hsel, acts, selects, writeActs, he]
        · cases hr
  · cases hm : m.fut with
    | reply f =>
      rw [hm] at hr hf
      simp only [phOf] at hr
      split at hr <;> try cases hr
      rename_i id t hfut
      left
      refine ⟨hf.1, ?_⟩
      cases hrr : replyResult e <;>
        simp [ReqFut.poll, ReplyFuture.poll, hfut, pollReplyBlock, pollSelect, hsel, hrr]
    | stream f =>
      rw [hm] at hr
      simp only [phOf] at hr
      split at hr <;> cases hr
    | items x =>
      rw [hm] at hr hf
      simp only [phOf] at hr
      right
      refine ⟨hf.1, ?_⟩
      split at hr
      · rename_i u hfut
        simp [ReqFut.poll, ResponseStream.pollNext, hfut, pollNextBlock, hsel]
      · cases hr
      · rename_i hfut
        split at hr
        · rename_i hl
          simp [ReqFut.poll, ResponseStream.pollNext, hfut, hl, pollNextBlock, hsel]
        · cases hr

/-- **C68, panics.** A poll panics only if the request is over already (its future, or its stream, has told so before), or it is the first poll and serialising the payload panics or does not
end. In particular no reply of a peer makes the poll panic. -/
theorem C68_panics {m : M CB P} (h : Reach cfg a m) (hg : m.gone = false) (ht : m.todo = []) (env : Env P) (hs : Sane env) (hp : (m.fut.poll env).1 = .panic) :
    (∃ q how, m.s.reqs a.r = some q ∧ q.phase = .finished how) ∨
    (m.s.reqs a.r = none ∧ (env.enc a.payload = .panic ∨ env.enc a.payload = .hang)) := by
  obtain ⟨E, j⟩ := j_reach h
  have hr := j.run hg
  rw [ht] at hr
  simp only [phRun, Option.some.injEq] at hr
  rcases poll_panics hs j.fut hp with h1 | ⟨hk, e, he, hrr⟩ | ⟨h1, h2⟩
  · left
    rw [h1] at hr
    cases hq : m.s.reqs a.r with
    | none => simp [hq, phaseOfReq] at hr
    | some q =>
      cases hph : q.phase with
      | finished how => exact ⟨q, how, rfl, hph⟩
      | _ => simp [hq, phaseOfReq, hph] at hr
  · exfalso
    unfold replyResult at hrr
    split at hrr
    · rename_i ht
      cases hpl : e.payload errorPayload with
      | panic =>
        have := (C49_error_payload_safe e.data).1
        simp only [Event.payload] at hpl
        cases hd : errorPayload.dec e.data <;> simp_all
      | _ => simp [hpl] at hrr
    · cases hrr
  · exact Or.inr ⟨phaseOfReq_new (hr.trans h1), h2⟩

end

/-! ### An execution -/

/-- `await_reply` for the event "q" on connection 0. -/
def refineDemo (kind : ReqKind) : Params Bytes where
  r := 0
  ctx := .conn 0
  conn := 0
  ref := none
  kind := kind
  ns := none
  name := "q"
  payload := [1]
  timeout := 60

/-- Everything works; the channel yields `e`. -/
def refineEnv (e : Option Event) : Env Bytes where
  enc := .ok
  freshId := 7
  writing := fun _ => .ready (.ok ())
  channel := match e with | none => .pending | some e => .ready (some e)
  timer := fun _ => false
  timerFirst := false

theorem refineEnv_sane (e : Option Event) : Sane (refineEnv e) :=
  ⟨fun _ => Or.inr (Or.inl rfl), by cases e <;> simp [refineEnv]⟩

/-- C68 is not empty: a request is registered, written, answered, and takes the answer; after this its listener is gone. -/
example : ∃ m : M Nat Bytes, Reach demo (refineDemo .single) m ∧ m.todo = [] ∧ m.s.listeners 0 7 = none ∧
    ∃ q, m.s.reqs 0 = some q ∧ q.phase = .finished .replied ∧ q.popped = [peerEvent 21 none "a" .response (some 7)] := by
  let e := peerEvent 21 none "a" .response (some 7)
  have h0 : Reach demo (refineDemo .single) { s := {}, fut := (refineDemo .single).start none, todo := [] } := .init none ⟨[], rfl⟩ rfl rfl
  have h1 := h0.step (.poll (refineEnv none) (refineEnv_sane _) rfl rfl)
  have h2 := h1.step (.act (x := .register (ctxEvent none none "q" [1] 7)) rfl trivial rfl)
  have h3 := h2.step (.act (x := .sent (ctxEvent none none "q" [1] 7)) rfl trivial rfl)
  have h4 := h3.step (.other (op := .arrive 0 e) rfl rfl)
  have h5 := h4.step (.other (op := .take 0 0) rfl rfl)
  have h6 := h5.step (.other (op := .deliver 0 0) rfl rfl)
  have h7 := h6.step (.poll (refineEnv (some e)) (refineEnv_sane _) rfl rfl)
  have h8 := h7.step (.act (x := .got e) rfl ⟨_, [], rfl, rfl⟩ rfl)
  have h9 := h8.step (.act (x := .unregister 7) rfl trivial rfl)
  exact ⟨_, h9, rfl, rfl, _, rfl, rfl, rfl⟩

/-- The same for a stream: two items, the second an End event. -/
example : ∃ m : M Nat Bytes, Reach demo (refineDemo .stream) m ∧ m.todo = [] ∧ m.s.listeners 0 7 = none ∧
    ∃ q, m.s.reqs 0 = some q ∧ q.phase = .finished .replied ∧ q.popped = [peerEvent 21 none "a" .response (some 7), peerEvent 22 none "end" .end (some 7)] := by
  let e := peerEvent 21 none "a" .response (some 7)
  let f := peerEvent 22 none "end" .end (some 7)
  have h0 : Reach demo (refineDemo .stream) { s := {}, fut := (refineDemo .stream).start (some 5), todo := [] } := .init (some 5) ⟨[], rfl⟩ rfl rfl
  have h1 := h0.step (.poll (refineEnv none) (refineEnv_sane _) rfl rfl)
  have h2 := h1.step (.act (x := .register (ctxEvent none none "q" [1] 7)) rfl trivial rfl)
  have h3 := h2.step (.act (x := .sent (ctxEvent none none "q" [1] 7)) rfl trivial rfl)
  have h4 := h3.step (.other (op := .arrive 0 e) rfl rfl)
  have h4' := h4.step (.other (op := .arrive 0 f) rfl rfl)
  have h5 := h4'.step (.other (op := .take 0 0) rfl rfl)
  have h6 := h5.step (.other (op := .deliver 0 0) rfl rfl)
  have h7 := h6.step (.poll (refineEnv (some e)) (refineEnv_sane _) rfl rfl)
  have h8 := h7.step (.act (x := .got e) rfl ⟨_, [], rfl, rfl⟩ rfl)
  have h9 := h8.step (.other (op := .take 0 0) rfl rfl)
  have ha := h9.step (.other (op := .deliver 0 0) rfl rfl)
  have hb := ha.step (.poll (refineEnv (some f)) (refineEnv_sane _) rfl rfl)
  have hc := hb.step (.act (x := .got f) rfl ⟨_, [], rfl, rfl⟩ rfl)
  have hd := hc.step (.act (x := .unregister 7) rfl trivial rfl)
  exact ⟨_, hd, rfl, rfl, _, rfl, rfl, rfl⟩

/-- A request that is dropped while it waits. -/
example : ∃ m : M Nat Bytes, Reach demo (refineDemo .single) m ∧ m.gone = true ∧ m.s.listeners 0 7 = some 0 ∧
    ∃ q, m.s.reqs 0 = some q ∧ q.phase = .finished .dropped := by
  have h0 : Reach demo (refineDemo .single) { s := {}, fut := (refineDemo .single).start none, todo := [] } := .init none ⟨[], rfl⟩ rfl rfl
  have h1 := h0.step (.poll (refineEnv none) (refineEnv_sane _) rfl rfl)
  have h2 := h1.step (.act (x := .register (ctxEvent none none "q" [1] 7)) rfl trivial rfl)
  have h3 := h2.step (.act (x := .sent (ctxEvent none none "q" [1] 7)) rfl trivial rfl)
  have h4 := h3.step (.drop rfl rfl)
  exact ⟨_, h4, rfl, rfl, _, rfl, rfl⟩

end Bromine.Props
