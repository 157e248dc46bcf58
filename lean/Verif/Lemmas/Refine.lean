import Verif.Spec.Refine
import Verif.Lemmas.EndpointInv
/-
The invariant of Model/Refine.lean: the phase that the endpoint model gives a request is the stage of its future, up to the acts of the current poll that are still to be done.
-/
namespace Bromine.Refine
set_option linter.unusedSimpArgs false

theorem replyResult_ok {e x : Event} (h : replyResult e = .ok x) : x = e := by
  unfold replyResult at h
  split at h
  · cases hp : e.payload errorPayload <;> simp [hp] at h
  · simpa using h.symm

theorem replyResult_err {e : Event} {x : Error} (h : replyResult e = .err x) : e.eventType = .error := by
  unfold replyResult at h
  split at h
  · assumption
  · cases h
open Endpoint

/-- Phases of a request. -/
inductive Ph where
  | new
  | registered
  | waiting
  | closing
  | finished
deriving DecidableEq, Repr

def phaseOfReq : Option Req → Ph
  | none => .new
  | some q =>
    match q.phase with
    | .registered => .registered
    | .waiting => .waiting
    | .closing _ => .closing
    | .finished _ => .finished

/-- What acts do to the phase. -/
def phStep (kind : ReqKind) : Ph → Act → Option Ph
  | .new, .register _ => some .registered
  | .registered, .sent _ => some .waiting
  | .registered, .failed _ => some .finished
  | .waiting, .got e => some (if kind = .single ∨ e.eventType = .end then .closing else .waiting)
  | .waiting, .closed => some (if kind = .single then .finished else .closing)
  | .waiting, .timedOut => some .finished
  | .closing, .unregister _ => some .finished
  | _, _ => none

def phRun (kind : ReqKind) : Ph → List Act → Option Ph
  | p, [] => some p
  | p, x :: xs => (phStep kind p x).bind fun p => phRun kind p xs

def phOf {P : Type} : ReqFut P → Ph
  | .reply f =>
    match f.fut with
    | none => .new
    | some (_, _, .running .selecting) => .waiting
    | some (_, _, .running _) => .registered
    | some (_, _, .completed) => .finished
  | .stream f =>
    match f.fut with
    | none => .new
    | some (_, _, .running _) => .registered
    | some (_, _, .completed) => .finished
  | .items x =>
    match x.fut with
    | some (.running _) => .waiting
    | some .completed => .finished
    | none => if x.live then .waiting else .finished

/-- The events and ids in acts are those of the request. -/
def EvOk (E : Event) : Act → Prop
  | .register e => e = E
  | .sent e => e = E
  | .failed e => e = E
  | .unregister id => id = E.id
  | _ => True

variable {P : Type}

/-- The event is what the request emits. -/
def Built (a : Params P) (E : Event) : Prop := E = ctxEvent a.ref a.ns a.name E.data E.id

def ReplyStageOk (E : Event) : Fut (ReplyStage P) → Prop
  | .completed => True
  | .running .selecting => True
  | .running (.emitting em) => em.fut = some (.running E)
  | .running (.start _) => False

def StreamStageOk (E : Event) : Fut (StreamStage P) → Prop
  | .completed => True
  | .running (.emitting em) => em.fut = some (.running E)
  | .running (.start _) => False

/-- The future belongs to the request. -/
def FutOk (a : Params P) (E : Event) : ReqFut P → Prop
  | .reply f => a.kind = .single ∧
      (match f.fut with
        | none => f.emitMetadata = none ∨ f.emitMetadata = some a.emit
        | some (id, _, F) => id = E.id ∧ Built a E ∧ ReplyStageOk E F)
  | .stream f => a.kind = .stream ∧
      (match f.fut with
        | none => f.emitMetadata = none ∨ f.emitMetadata = some a.emit
        | some (id, _, F) => id = E.id ∧ Built a E ∧ StreamStageOk E F)
  | .items x => a.kind = .stream ∧ x.eventId = E.id ∧ Built a E ∧ (x.fut ≠ none → x.live = false)

theorem futOk_start (a : Params P) (t : Option Nat) (E : Event) : FutOk a E (a.start t) := by
  unfold Params.start
  split <;> rename_i h <;> exact ⟨h, Or.inr rfl⟩

theorem phOf_start (a : Params P) (t : Option Nat) : phOf (a.start t) = .new := by
  unfold Params.start
  split <;> rfl

/-- Writing, one poll. -/
theorem pollWrite_cases {env : Env P} (hs : Sane env) (e : Event) :
    (env.writing e = .pending ∧ pollWrite env (.running e) = (.pending, .running e, [.write e])) ∨
    (env.writing e = .ready (.ok ()) ∧ pollWrite env (.running e) = (.ready (.ok e.id), .completed, [.write e])) ∨
    ∃ x, env.writing e = .ready (.err x) ∧ pollWrite env (.running e) = (.ready (.err x), .completed, [.write e]) := by
  rcases hs.writing e with h | h | ⟨x, h⟩
  · left; exact ⟨h, by simp [pollWrite, h]⟩
  · right; left; exact ⟨h, by simp [pollWrite, h]⟩
  · right; right; exact ⟨x, h, by simp [pollWrite, h]⟩

/-- `select!`, one poll. -/
theorem select_cases {env : Env P} (hs : Sane env) (t : Nat) :
    selectReply env t = .pending ∨ (∃ e, selectReply env t = .ready (.ok (some e))) ∨ selectReply env t = .ready (.ok none) ∨
      selectReply env t = .ready (.err .timeout) := by
  unfold selectReply
  have := hs.channel
  cases h1 : env.timer t <;> cases h2 : env.timerFirst <;> cases h3 : env.channel with
  | pending => simp
  | ready x => cases x <;> simp
  | panic => exact absurd h3 this

/-- Lines 59-74, one poll: stage and acts. -/
theorem pollSelect_spec {env : Env P} (hs : Sane env) (id : UInt64) (t : Nat) :
    let r := pollSelect env id t
    (r.2.2 = [] ∨ r.2.2 = [.unregister id]) ∧
    ((r.2.1 = .running .selecting ∧ selectReply env t = .pending ∧ r.2.2 = []) ∨
     (r.2.1 = .completed ∧ ((∃ e, selectReply env t = .ready (.ok (some e)) ∧ r.2.2 = [.unregister id]) ∨ (selectReply env t = .ready (.ok none) ∧ r.2.2 = []) ∨
       (selectReply env t = .ready (.err .timeout) ∧ r.2.2 = [])))) := by
  rcases select_cases hs t with h | ⟨e, h⟩ | h | h
  · simp [pollSelect, h]
  · simp only [pollSelect, h]
    cases replyResult e <;> simp
  · simp [pollSelect, h]
  · simp [pollSelect, h]

/-- An emit future that is about to write `e`. -/
def Ready (e : Event) (em : EmitFuture P) : Prop :=
  em.fut = some (.running e) ∨ em.fut = none ∧ em.stream = some () ∧ ∃ m, em.metadata = some m ∧ m.event = some e

theorem ready_poll {env : Env P} {e : Event} {em : EmitFuture P} (h : Ready e em) :
    ∃ em', em.poll env = ((pollWrite env (.running e)).1, em', (pollWrite env (.running e)).2.2) ∧ em'.fut = some (pollWrite env (.running e)).2.1 := by
  rcases h with h | ⟨h1, h2, m, h3, h4⟩
  · exact ⟨{ em with fut := some (pollWrite env (.running e)).2.1 }, by simp [EmitFuture.poll, h], rfl⟩
  · refine ⟨{ em with metadata := none, stream := none, fut := some (pollWrite env (.running e)).2.1 }, ?_, rfl⟩
    simp [EmitFuture.poll, h1, h3, h2, EventMetadata.takeEvent, h4]

/-- Lines 57-74 of emit_metadata_with_response.rs, one poll. -/
theorem pollEmitting_cases {env : Env P} (hs : Sane env) {e : Event} {em : EmitFuture P} (h : Ready e em) (id : UInt64) (t : Nat) :
    (env.writing e = .pending ∧ ∃ em', em'.fut = some (.running e) ∧ pollEmitting env id t em = (.pending, .running (.emitting em'), [.write e])) ∨
    (env.writing e = .ready (.ok ()) ∧
      pollEmitting env id t em = ((pollSelect (P := P) env id t).1, (pollSelect env id t).2.1, .write e :: (pollSelect (P := P) env id t).2.2)) ∨
    ∃ x, env.writing e = .ready (.err x) ∧ pollEmitting env id t em = (.ready (.err x), .completed, [.write e]) := by
  obtain ⟨em', h1, h2⟩ := ready_poll (env := env) h
  rcases pollWrite_cases hs e with ⟨hw, hp⟩ | ⟨hw, hp⟩ | ⟨x, hw, hp⟩
  · left
    rw [hp] at h1 h2
    exact ⟨hw, em', h2, by simp [pollEmitting, h1]⟩
  · right; left
    rw [hp] at h1
    exact ⟨hw, by simp [pollEmitting, h1]⟩
  · right; right
    rw [hp] at h1
    exact ⟨x, hw, by simp [pollEmitting, h1]⟩

theorem pollStreamEmitting_cases {env : Env P} (hs : Sane env) {e : Event} {em : EmitFuture P} (h : Ready e em) (id : UInt64) (t : Nat) :
    (env.writing e = .pending ∧ ∃ em', em'.fut = some (.running e) ∧ pollStreamEmitting env id t em = (.pending, .running (.emitting em'), [.write e])) ∨
    (env.writing e = .ready (.ok ()) ∧
      pollStreamEmitting env id t em = (.ready (.ok (ResponseStream.new id t)), .completed, [.write e])) ∨
    ∃ x, env.writing e = .ready (.err x) ∧ pollStreamEmitting env id t em = (.ready (.err x), .completed, [.write e]) := by
  obtain ⟨em', h1, h2⟩ := ready_poll (env := env) h
  rcases pollWrite_cases hs e with ⟨hw, hp⟩ | ⟨hw, hp⟩ | ⟨x, hw, hp⟩
  · left
    rw [hp] at h1 h2
    exact ⟨hw, em', h2, by simp [pollStreamEmitting, h1]⟩
  · right; left
    rw [hp] at h1
    exact ⟨hw, by simp [pollStreamEmitting, h1]⟩
  · right; right
    rw [hp] at h1
    exact ⟨x, hw, by simp [pollStreamEmitting, h1]⟩

/-- Building the event of a request. -/
theorem getEvent_emit (a : Params P) (env : Env P) :
    ∃ m ctx, a.emit.metadata = some m ∧ m.ctx = some ctx ∧ a.emit.fut = none ∧ a.emit.stream = some () ∧
      ((∃ x, m.getEvent env.enc env.freshId = .err x) ∨ m.getEvent env.enc env.freshId = .panic ∨ m.getEvent env.enc env.freshId = .hang ∨
       ∃ E m', m.getEvent env.enc env.freshId = .ok (E, m') ∧ m'.event = some E ∧ Built a E) := by
  obtain ⟨m, hm, hctx⟩ : ∃ m, a.emit.metadata = some m ∧ m.event = none ∧ (∃ c, m.ctx = some c) ∧ m.eventName = some a.name ∧ m.eventNamespace = some a.ns ∧
      m.payload = some a.payload ∧ m.resId = some a.ref ∧ m.eventType = some (match a.ref with | none => .initiator | some _ => .response) := by
    unfold Params.emit
    cases hns : a.ns <;> cases href : a.ref <;>
      simp [EmitFuture.new, Context.emit, Context.emitTo, StreamEmitter.emit, StreamEmitter.emitTo, StreamEmitter.emitResponse, StreamEmitter.emitResponseTo, EventMetadata.new]
  obtain ⟨h1, ⟨c, h2⟩, h3, h4, h5, h6, h7⟩ := hctx
  refine ⟨m, c, hm, h2, rfl, rfl, ?_⟩
  cases he : env.enc a.payload with
  | err x => exact Or.inl ⟨x, by simp [EventMetadata.getEvent, EventMetadata.buildEvent, takeField, h1, h2, h3, h4, h5, h6, h7, he]⟩
  | panic => exact Or.inr (Or.inl (by simp [EventMetadata.getEvent, EventMetadata.buildEvent, takeField, h1, h2, h3, h4, h5, h6, h7, he]))
  | hang => exact Or.inr (Or.inr (Or.inl (by simp [EventMetadata.getEvent, EventMetadata.buildEvent, takeField, h1, h2, h3, h4, h5, h6, h7, he])))
  | ok b =>
    refine Or.inr (Or.inr (Or.inr ⟨ctxEvent a.ref a.ns a.name b env.freshId,
      { event := some (ctxEvent a.ref a.ns a.name b env.freshId), ctx := none, eventNamespace := none, eventName := none, resId := none, eventType := none, payload := none }, ?_, rfl, ?_⟩))
    · cases href : a.ref <;> simp [EventMetadata.getEvent, EventMetadata.buildEvent, takeField, h1, h2, h3, h4, h5, h6, h7, he, ctxEvent, href]
    · cases href : a.ref <;> simp [Built, ctxEvent, href, Event.new, Event.id]

/-- Acts of the select. -/
def selActs (env : Env P) (t : Nat) : List Act :=
  match selectReply env t with
  | .ready (.ok (some e)) => [.got e]
  | .ready (.ok none) => [.closed]
  | .ready (.err _) => [.timedOut]
  | _ => []

theorem acts_eq (env : Env P) (pre post : ReqFut P) (eff : List Effect) :
    acts env pre post eff = writeActs env eff ++ ((selects env eff pre post).elim [] (selActs env)) ++ eff.filterMap (fun | .unregister id => some (.unregister id) | _ => none) := by
  unfold acts
  cases selects env eff pre post <;> rfl

/-- What one poll does. -/
def PollOk (a : Params P) (env : Env P) (E : Event) (pre : ReqFut P) (got : Got) (post : ReqFut P) (eff : List Effect) : Prop :=
  ∃ E', FutOk a E' post ∧ phRun a.kind (phOf pre) (acts env pre post eff) = some (phOf post) ∧ (∀ x ∈ acts env pre post eff, EvOk E' x) ∧ (phOf pre ≠ .new → E' = E) ∧
    ToldRight env (acts env pre post eff) got ∧
    (∀ id, Effect.register id ∈ eff ↔ ∃ e, .register e ∈ acts env pre post eff ∧ id = e.id) ∧
    (∀ id, Effect.unregister id ∈ eff ↔ .unregister id ∈ acts env pre post eff) ∧
    (∀ e, (Effect.write e ∈ eff ∧ env.writing e = .ready (.ok ())) ↔ .sent e ∈ acts env pre post eff)

theorem poll_reply_running {a : Params P} {env : Env P} (hs : Sane env) {E : Event} {f : ReplyFuture P} (hk : a.kind = .single) {t : Nat} {F : Fut (ReplyStage P)} (hf : f.fut = some (E.id, t, F)) (hb : Built a E) (hF : ReplyStageOk E F) :
    PollOk a env E (.reply f) ((ReqFut.reply f).poll env).1 ((ReqFut.reply f).poll env).2.1 ((ReqFut.reply f).poll env).2.2 := by
  refine ⟨E, ?_⟩
  rcases F with (em | em | _) | _
  · exact absurd hF (by simp [ReplyStageOk])
  · have hr : Ready E em := Or.inl hF
    rcases pollEmitting_cases hs hr E.id t with ⟨hw, em', hem', hp⟩ | ⟨hw, hp⟩ | ⟨x, hw, hp⟩
    · simp [ToldRight, ReqFut.poll, ReplyFuture.poll, hf, FutOk, hk, acts, selects, writeActs, phRun, phOf, pollReplyBlock, hp, hb, ReplyStageOk, hem', hw, phStep, EvOk]
    · rcases select_cases hs t with h | ⟨e, h⟩ | h | h
      · simp [ToldRight, ReqFut.poll, ReplyFuture.poll, hf, FutOk, hk, acts, selects, writeActs, phRun, phOf, pollReplyBlock, hp, hb, ReplyStageOk, hw, phStep, EvOk, pollSelect, h]
      · cases hrr : replyResult e <;> (first | have hrx := replyResult_ok hrr | have hrx := replyResult_err hrr | have hrx := True.intro) <;>
        simp [ToldRight, ReqFut.poll, ReplyFuture.poll, hf, FutOk, hk, acts, selects, writeActs, phRun, phOf, pollReplyBlock, hp, hb, ReplyStageOk, hw, phStep, EvOk, pollSelect, h, hrr, hrx]
      · simp [ToldRight, ReqFut.poll, ReplyFuture.poll, hf, FutOk, hk, acts, selects, writeActs, phRun, phOf, pollReplyBlock, hp, hb, ReplyStageOk, hw, phStep, EvOk, pollSelect, h]
      · simp [ToldRight, ReqFut.poll, ReplyFuture.poll, hf, FutOk, hk, acts, selects, writeActs, phRun, phOf, pollReplyBlock, hp, hb, ReplyStageOk, hw, phStep, EvOk, pollSelect, h]
    · simp [ToldRight, ReqFut.poll, ReplyFuture.poll, hf, FutOk, hk, acts, selects, writeActs, phRun, phOf, pollReplyBlock, hp, hb, ReplyStageOk, hw, phStep, EvOk]
  · rcases select_cases hs t with h | ⟨e, h⟩ | h | h
    · simp [ToldRight, ReqFut.poll, ReplyFuture.poll, hf, FutOk, hk, acts, selects, writeActs, phRun, phOf, pollReplyBlock, hb, ReplyStageOk, phStep, EvOk, pollSelect, h]
    · cases hrr : replyResult e <;> (first | have hrx := replyResult_ok hrr | have hrx := replyResult_err hrr | have hrx := True.intro) <;>
      simp [ToldRight, ReqFut.poll, ReplyFuture.poll, hf, FutOk, hk, acts, selects, writeActs, phRun, phOf, pollReplyBlock, hb, ReplyStageOk, phStep, EvOk, pollSelect, h, hrr, hrx]
    · simp [ToldRight, ReqFut.poll, ReplyFuture.poll, hf, FutOk, hk, acts, selects, writeActs, phRun, phOf, pollReplyBlock, hb, ReplyStageOk, phStep, EvOk, pollSelect, h]
    · simp [ToldRight, ReqFut.poll, ReplyFuture.poll, hf, FutOk, hk, acts, selects, writeActs, phRun, phOf, pollReplyBlock, hb, ReplyStageOk, phStep, EvOk, pollSelect, h]
  · simp [ToldRight, ReqFut.poll, ReplyFuture.poll, hf, FutOk, hk, acts, selects, writeActs, phRun, phOf, pollReplyBlock, hb, ReplyStageOk]

theorem poll_reply {a : Params P} {env : Env P} (hs : Sane env) {E : Event} {f : ReplyFuture P} (h : FutOk a E (.reply f)) :
    PollOk a env E (.reply f) ((ReqFut.reply f).poll env).1 ((ReqFut.reply f).poll env).2.1 ((ReqFut.reply f).poll env).2.2 := by
  have h' : a.kind = .single ∧ ((f.fut = none ∧ (f.emitMetadata = none ∨ f.emitMetadata = some a.emit)) ∨ ∃ t F, f.fut = some (E.id, t, F) ∧ Built a E ∧ ReplyStageOk E F) := by
    refine ⟨h.1, ?_⟩
    have h2 := h.2
    cases hf : f.fut with
    | none => rw [hf] at h2; exact Or.inl ⟨rfl, h2⟩
    | some v =>
      obtain ⟨id, t, F⟩ := v
      rw [hf] at h2
      obtain ⟨rfl, h3, h4⟩ := h2
      exact Or.inr ⟨t, F, rfl, h3, h4⟩
  obtain ⟨hk, ⟨hf, he | he⟩ | ⟨t, F, hf, hb, hF⟩⟩ := h'
  · refine ⟨E, ?_⟩; simp [ToldRight, ReqFut.poll, ReplyFuture.poll, hf, he, FutOk, hk, acts, selects, writeActs, phRun, phOf]
  · obtain ⟨m, ctx, h1, h2, h3, h4, ⟨x, hg⟩ | hg | hg | ⟨E', m', hg, hm', hb'⟩⟩ := getEvent_emit a env
    · refine ⟨E, ?_⟩; simp [ToldRight, ReqFut.poll, ReplyFuture.poll, hf, he, FutOk, hk, acts, selects, writeActs, phRun, phOf, h1, h2, hg]
    · refine ⟨E, ?_⟩; simp [ToldRight, ReqFut.poll, ReplyFuture.poll, hf, he, FutOk, hk, acts, selects, writeActs, phRun, phOf, h1, h2, hg]
    · refine ⟨E, ?_⟩; simp [ToldRight, ReqFut.poll, ReplyFuture.poll, hf, he, FutOk, hk, acts, selects, writeActs, phRun, phOf, h1, h2, hg]
    · have hr : Ready E' { a.emit with metadata := some m' } := Or.inr ⟨h3, h4, m', rfl, hm'⟩
      refine ⟨E', ?_⟩
      rcases pollEmitting_cases hs hr E'.id (f.timeout.getD ctx.defaultReplyTimeout) with ⟨hw, em', hem, hp⟩ | ⟨hw, hp⟩ | ⟨x, hw, hp⟩
      · simp [ToldRight, ReqFut.poll, ReplyFuture.poll, hf, he, FutOk, hk, acts, selects, writeActs, phRun, phOf, h1, h2, hg, pollReplyBlock, hp, hb', ReplyStageOk, hem, hw, phStep, EvOk]
      · rcases select_cases hs (f.timeout.getD ctx.defaultReplyTimeout) with h | ⟨e, h⟩ | h | h
        · simp [ToldRight, ReqFut.poll, ReplyFuture.poll, hf, he, FutOk, hk, acts, selects, writeActs, phRun, phOf, h1, h2, hg, pollReplyBlock, hp, hb', ReplyStageOk, hw, phStep, EvOk, pollSelect, h]
        · cases hrr : replyResult e <;> (first | have hrx := replyResult_ok hrr | have hrx := replyResult_err hrr | have hrx := True.intro) <;>
          simp [ToldRight, ReqFut.poll, ReplyFuture.poll, hf, he, FutOk, hk, acts, selects, writeActs, phRun, phOf, h1, h2, hg, pollReplyBlock, hp, hb', ReplyStageOk, hw, phStep, EvOk, pollSelect, h, hrr, hrx]
        · simp [ToldRight, ReqFut.poll, ReplyFuture.poll, hf, he, FutOk, hk, acts, selects, writeActs, phRun, phOf, h1, h2, hg, pollReplyBlock, hp, hb', ReplyStageOk, hw, phStep, EvOk, pollSelect, h]
        · simp [ToldRight, ReqFut.poll, ReplyFuture.poll, hf, he, FutOk, hk, acts, selects, writeActs, phRun, phOf, h1, h2, hg, pollReplyBlock, hp, hb', ReplyStageOk, hw, phStep, EvOk, pollSelect, h]
      · simp [ToldRight, ReqFut.poll, ReplyFuture.poll, hf, he, FutOk, hk, acts, selects, writeActs, phRun, phOf, h1, h2, hg, pollReplyBlock, hp, hb', ReplyStageOk, hw, phStep, EvOk]
  · exact poll_reply_running hs hk hf hb hF

theorem poll_stream_running {a : Params P} {env : Env P} (hs : Sane env) {E : Event} {f : StreamFuture P} (hk : a.kind = .stream) {t : Nat} {F : Fut (StreamStage P)} (hf : f.fut = some (E.id, t, F)) (hb : Built a E) (hF : StreamStageOk E F) :
    PollOk a env E (.stream f) ((ReqFut.stream f).poll env).1 ((ReqFut.stream f).poll env).2.1 ((ReqFut.stream f).poll env).2.2 := by
  refine ⟨E, ?_⟩
  rcases F with (em | em) | _
  · exact absurd hF (by simp [StreamStageOk])
  · have hr : Ready E em := Or.inl hF
    rcases pollStreamEmitting_cases hs hr E.id t with ⟨hw, em', hem', hp⟩ | ⟨hw, hp⟩ | ⟨x, hw, hp⟩
    · simp [ToldRight, ReqFut.poll, StreamFuture.poll, hf, FutOk, hk, acts, selects, writeActs, phRun, phOf, pollStreamBlock, StreamStageOk, phStep, EvOk, ResponseStream.new, hb, hp, hem', hw]
    · simp [ToldRight, ReqFut.poll, StreamFuture.poll, hf, FutOk, hk, acts, selects, writeActs, phRun, phOf, pollStreamBlock, StreamStageOk, phStep, EvOk, ResponseStream.new, hb, hp, hw]
    · simp [ToldRight, ReqFut.poll, StreamFuture.poll, hf, FutOk, hk, acts, selects, writeActs, phRun, phOf, pollStreamBlock, StreamStageOk, phStep, EvOk, ResponseStream.new, hb, hp, hw]
  · simp [ToldRight, ReqFut.poll, StreamFuture.poll, hf, FutOk, hk, acts, selects, writeActs, phRun, phOf, pollStreamBlock, StreamStageOk, phStep, EvOk, ResponseStream.new, hb]

theorem poll_stream {a : Params P} {env : Env P} (hs : Sane env) {E : Event} {f : StreamFuture P} (h : FutOk a E (.stream f)) :
    PollOk a env E (.stream f) ((ReqFut.stream f).poll env).1 ((ReqFut.stream f).poll env).2.1 ((ReqFut.stream f).poll env).2.2 := by
  have h' : a.kind = .stream ∧ ((f.fut = none ∧ (f.emitMetadata = none ∨ f.emitMetadata = some a.emit)) ∨ ∃ t F, f.fut = some (E.id, t, F) ∧ Built a E ∧ StreamStageOk E F) := by
    refine ⟨h.1, ?_⟩
    have h2 := h.2
    cases hf : f.fut with
    | none => rw [hf] at h2; exact Or.inl ⟨rfl, h2⟩
    | some v =>
      obtain ⟨id, t, F⟩ := v
      rw [hf] at h2
      obtain ⟨rfl, h3, h4⟩ := h2
      exact Or.inr ⟨t, F, rfl, h3, h4⟩
  obtain ⟨hk, ⟨hf, he | he⟩ | ⟨t, F, hf, hb, hF⟩⟩ := h'
  · refine ⟨E, ?_⟩
    simp [ToldRight, ReqFut.poll, StreamFuture.poll, hf, FutOk, hk, acts, selects, writeActs, phRun, phOf, pollStreamBlock, StreamStageOk, phStep, EvOk, ResponseStream.new, he]
  · obtain ⟨m, ctx, h1, h2, h3, h4, ⟨x, hg⟩ | hg | hg | ⟨E', m', hg, hm', hb'⟩⟩ := getEvent_emit a env
    · refine ⟨E, ?_⟩
      simp [ToldRight, ReqFut.poll, StreamFuture.poll, hf, FutOk, hk, acts, selects, writeActs, phRun, phOf, pollStreamBlock, StreamStageOk, phStep, EvOk, ResponseStream.new, he, h1, h2, hg]
    · refine ⟨E, ?_⟩
      simp [ToldRight, ReqFut.poll, StreamFuture.poll, hf, FutOk, hk, acts, selects, writeActs, phRun, phOf, pollStreamBlock, StreamStageOk, phStep, EvOk, ResponseStream.new, he, h1, h2, hg]
    · refine ⟨E, ?_⟩
      simp [ToldRight, ReqFut.poll, StreamFuture.poll, hf, FutOk, hk, acts, selects, writeActs, phRun, phOf, pollStreamBlock, StreamStageOk, phStep, EvOk, ResponseStream.new, he, h1, h2, hg]
    · have hr : Ready E' { a.emit with metadata := some m' } := Or.inr ⟨h3, h4, m', rfl, hm'⟩
      refine ⟨E', ?_⟩
      rcases pollStreamEmitting_cases hs hr E'.id (f.timeout.getD ctx.defaultReplyTimeout) with ⟨hw, em', hem, hp⟩ | ⟨hw, hp⟩ | ⟨x, hw, hp⟩
      · simp [ToldRight, ReqFut.poll, StreamFuture.poll, hf, FutOk, hk, acts, selects, writeActs, phRun, phOf, pollStreamBlock, StreamStageOk, phStep, EvOk, ResponseStream.new, he, h1, h2, hg, hp, hb', hem, hw]
      · simp [ToldRight, ReqFut.poll, StreamFuture.poll, hf, FutOk, hk, acts, selects, writeActs, phRun, phOf, pollStreamBlock, StreamStageOk, phStep, EvOk, ResponseStream.new, he, h1, h2, hg, hp, hb', hw]
      · simp [ToldRight, ReqFut.poll, StreamFuture.poll, hf, FutOk, hk, acts, selects, writeActs, phRun, phOf, pollStreamBlock, StreamStageOk, phStep, EvOk, ResponseStream.new, he, h1, h2, hg, hp, hb', hw]
  · exact poll_stream_running hs hk hf hb hF

theorem poll_items {a : Params P} {env : Env P} (hs : Sane env) {E : Event} {x : ResponseStream} (h : FutOk a E (.items x)) :
    PollOk a env E (.items x) ((ReqFut.items (P := P) x).poll env).1 ((ReqFut.items x).poll env).2.1 ((ReqFut.items (P := P) x).poll env).2.2 := by
  obtain ⟨hk, hid, hb, hlv⟩ := h
  refine ⟨E, ?_⟩
  rcases hf : x.fut with _ | _ | _
  · cases hl : x.live
    · simp [ToldRight, ReqFut.poll, ResponseStream.pollNext, hf, hl, FutOk, hk, hid, hb, acts, selects, writeActs, phRun, phOf]
    · rcases select_cases hs x.timeout with h | ⟨e, h⟩ | h | h
      · simp [ToldRight, ReqFut.poll, ResponseStream.pollNext, pollNextBlock, hf, hl, FutOk, hk, hid, hb, acts, selects, writeActs, phRun, phOf, h, phStep, EvOk]
      · by_cases he : e.eventType = .end <;>
        simp [ToldRight, ReqFut.poll, ResponseStream.pollNext, pollNextBlock, hf, hl, FutOk, hk, hid, hb, acts, selects, writeActs, phRun, phOf, h, phStep, EvOk, he]
      · simp [ToldRight, ReqFut.poll, ResponseStream.pollNext, pollNextBlock, hf, hl, FutOk, hk, hid, hb, acts, selects, writeActs, phRun, phOf, h, phStep, EvOk]
      · simp [ToldRight, ReqFut.poll, ResponseStream.pollNext, pollNextBlock, hf, hl, FutOk, hk, hid, hb, acts, selects, writeActs, phRun, phOf, h, phStep, EvOk]
  · have hlv := hlv (by simp [hf])
    rcases select_cases hs x.timeout with h | ⟨e, h⟩ | h | h
    · simp [ToldRight, ReqFut.poll, ResponseStream.pollNext, pollNextBlock, hf, hlv, FutOk, hk, hid, hb, acts, selects, writeActs, phRun, phOf, h, phStep, EvOk]
    · by_cases he : e.eventType = .end <;>
      simp [ToldRight, ReqFut.poll, ResponseStream.pollNext, pollNextBlock, hf, hlv, FutOk, hk, hid, hb, acts, selects, writeActs, phRun, phOf, h, phStep, EvOk, he]
    · simp [ToldRight, ReqFut.poll, ResponseStream.pollNext, pollNextBlock, hf, hlv, FutOk, hk, hid, hb, acts, selects, writeActs, phRun, phOf, h, phStep, EvOk]
    · simp [ToldRight, ReqFut.poll, ResponseStream.pollNext, pollNextBlock, hf, hlv, FutOk, hk, hid, hb, acts, selects, writeActs, phRun, phOf, h, phStep, EvOk]
  · have hlv := hlv (by simp [hf])
    simp [ToldRight, ReqFut.poll, ResponseStream.pollNext, pollNextBlock, hf, hlv, FutOk, hk, hid, hb, acts, selects, writeActs, phRun, phOf]

theorem poll_spec {a : Params P} {env : Env P} (hs : Sane env) {E : Event} {f : ReqFut P} (h : FutOk a E f) :
    PollOk a env E f (f.poll env).1 (f.poll env).2.1 (f.poll env).2.2 := by
  cases f with
  | reply f => exact poll_reply hs h
  | stream f => exact poll_stream hs h
  | items x => exact poll_items hs h

/-- The event of a request is not built: serialisation has panicked (or does not end). -/
theorem getEvent_panics {a : Params P} {env : Env P} {m : EventMetadata P} (hm : a.emit.metadata = some m)
    (h : m.getEvent env.enc env.freshId = .panic ∨ m.getEvent env.enc env.freshId = .hang) : env.enc a.payload = .panic ∨ env.enc a.payload = .hang := by
  have hctx : m.event = none ∧ (∃ c, m.ctx = some c) ∧ m.eventName = some a.name ∧ m.eventNamespace = some a.ns ∧
      m.payload = some a.payload ∧ m.resId = some a.ref ∧ m.eventType = some (match a.ref with | none => .initiator | some _ => .response) := by
    unfold Params.emit at hm
    cases hns : a.ns <;> cases href : a.ref <;>
      simp [hns, href, EmitFuture.new, Context.emit, Context.emitTo, StreamEmitter.emit, StreamEmitter.emitTo, StreamEmitter.emitResponse, StreamEmitter.emitResponseTo, EventMetadata.new] at hm <;>
      subst hm <;> simp
  obtain ⟨h1, ⟨c, h2⟩, h3, h4, h5, h6, h7⟩ := hctx
  cases he : env.enc a.payload with
  | err x => simp [EventMetadata.getEvent, EventMetadata.buildEvent, takeField, h1, h2, h3, h4, h5, h6, h7, he] at h
  | panic => exact Or.inl rfl
  | hang => exact Or.inr rfl
  | ok b => simp [EventMetadata.getEvent, EventMetadata.buildEvent, takeField, h1, h2, h3, h4, h5, h6, h7, he] at h

theorem poll_panics {a : Params P} {env : Env P} (hs : Sane env) {E : Event} {f : ReqFut P} (h : FutOk a E f) (hp : (f.poll env).1 = .panic) :
    phOf f = .finished ∨ (a.kind = .single ∧ ∃ e, .got e ∈ acts env f (f.poll env).2.1 (f.poll env).2.2 ∧ replyResult e = .panic) ∨
      (phOf f = .new ∧ (env.enc a.payload = .panic ∨ env.enc a.payload = .hang)) := by
  cases f with
  | reply f =>
    obtain ⟨hk, h2⟩ := h
    cases hf : f.fut with
    | none =>
      rw [hf] at h2
      rcases h2 with he | he
      · simp [ReqFut.poll, ReplyFuture.poll, hf, he] at hp
      · obtain ⟨m, ctx, h1, h2, h3, h4, ⟨x, hg⟩ | hg | hg | ⟨E', m', hg, hm', hb'⟩⟩ := getEvent_emit a env
        · simp [ReqFut.poll, ReplyFuture.poll, hf, he, h1, h2, hg] at hp
        · exact Or.inr (Or.inr ⟨by simp [phOf, hf], getEvent_panics h1 (Or.inl hg)⟩)
        · exact Or.inr (Or.inr ⟨by simp [phOf, hf], getEvent_panics h1 (Or.inr hg)⟩)
        · have hr : Ready E' { a.emit with metadata := some m' } := Or.inr ⟨h3, h4, m', rfl, hm'⟩
          rcases pollEmitting_cases hs hr E'.id (f.timeout.getD ctx.defaultReplyTimeout) with ⟨hw, em', hem, hq⟩ | ⟨hw, hq⟩ | ⟨x, hw, hq⟩
          · simp [ReqFut.poll, ReplyFuture.poll, hf, he, h1, h2, hg, pollReplyBlock, hq] at hp
          · rcases select_cases hs (f.timeout.getD ctx.defaultReplyTimeout) with h | ⟨e, h⟩ | h | h
            · simp [ReqFut.poll, ReplyFuture.poll, hf, he, h1, h2, hg, pollReplyBlock, hq, pollSelect, h] at hp
            · cases hrr : replyResult e with
              | panic => exact Or.inr (Or.inl ⟨hk, e, by simp [acts, selects, writeActs, ReqFut.poll, ReplyFuture.poll, hf, he, h1, h2, hg, pollReplyBlock, hq, pollSelect, h, hrr, hw], hrr⟩)
              | _ => simp [ReqFut.poll, ReplyFuture.poll, hf, he, h1, h2, hg, pollReplyBlock, hq, pollSelect, h, hrr] at hp
            · simp [ReqFut.poll, ReplyFuture.poll, hf, he, h1, h2, hg, pollReplyBlock, hq, pollSelect, h] at hp
            · simp [ReqFut.poll, ReplyFuture.poll, hf, he, h1, h2, hg, pollReplyBlock, hq, pollSelect, h] at hp
          · simp [ReqFut.poll, ReplyFuture.poll, hf, he, h1, h2, hg, pollReplyBlock, hq] at hp
    | some v =>
      obtain ⟨id, t, F⟩ := v
      rw [hf] at h2
      obtain ⟨rfl, hb, hF⟩ := h2
      rcases F with (em | em | _) | _
      · exact absurd hF (by simp [ReplyStageOk])
      · have hr : Ready E em := Or.inl hF
        rcases pollEmitting_cases hs hr E.id t with ⟨hw, em', hem', hq⟩ | ⟨hw, hq⟩ | ⟨x, hw, hq⟩
        · simp [ReqFut.poll, ReplyFuture.poll, hf, pollReplyBlock, hq] at hp
        · rcases select_cases hs t with h | ⟨e, h⟩ | h | h
          · simp [ReqFut.poll, ReplyFuture.poll, hf, pollReplyBlock, hq, pollSelect, h] at hp
          · cases hrr : replyResult e with
            | panic => exact Or.inr (Or.inl ⟨hk, e, by simp [acts, selects, writeActs, ReqFut.poll, ReplyFuture.poll, hf, pollReplyBlock, hq, pollSelect, h, hrr, hw], hrr⟩)
            | _ => simp [ReqFut.poll, ReplyFuture.poll, hf, pollReplyBlock, hq, pollSelect, h, hrr] at hp
          · simp [ReqFut.poll, ReplyFuture.poll, hf, pollReplyBlock, hq, pollSelect, h] at hp
          · simp [ReqFut.poll, ReplyFuture.poll, hf, pollReplyBlock, hq, pollSelect, h] at hp
        · simp [ReqFut.poll, ReplyFuture.poll, hf, pollReplyBlock, hq] at hp
      · rcases select_cases hs t with h | ⟨e, h⟩ | h | h
        · simp [ReqFut.poll, ReplyFuture.poll, hf, pollReplyBlock, pollSelect, h] at hp
        · cases hrr : replyResult e with
          | panic => exact Or.inr (Or.inl ⟨hk, e, by simp [acts, selects, writeActs, ReqFut.poll, ReplyFuture.poll, hf, pollReplyBlock, pollSelect, h, hrr], hrr⟩)
          | _ => simp [ReqFut.poll, ReplyFuture.poll, hf, pollReplyBlock, pollSelect, h, hrr] at hp
        · simp [ReqFut.poll, ReplyFuture.poll, hf, pollReplyBlock, pollSelect, h] at hp
        · simp [ReqFut.poll, ReplyFuture.poll, hf, pollReplyBlock, pollSelect, h] at hp
      · exact Or.inl (by simp [phOf, hf])
  | stream f =>
    obtain ⟨hk, h2⟩ := h
    cases hf : f.fut with
    | none =>
      rw [hf] at h2
      rcases h2 with he | he
      · simp [ReqFut.poll, StreamFuture.poll, hf, he] at hp
      · obtain ⟨m, ctx, h1, h2, h3, h4, ⟨x, hg⟩ | hg | hg | ⟨E', m', hg, hm', hb'⟩⟩ := getEvent_emit a env
        · simp [ReqFut.poll, StreamFuture.poll, hf, he, h1, h2, hg] at hp
        · exact Or.inr (Or.inr ⟨by simp [phOf, hf], getEvent_panics h1 (Or.inl hg)⟩)
        · exact Or.inr (Or.inr ⟨by simp [phOf, hf], getEvent_panics h1 (Or.inr hg)⟩)
        · have hr : Ready E' { a.emit with metadata := some m' } := Or.inr ⟨h3, h4, m', rfl, hm'⟩
          rcases pollStreamEmitting_cases hs hr E'.id (f.timeout.getD ctx.defaultReplyTimeout) with ⟨hw, em', hem, hq⟩ | ⟨hw, hq⟩ | ⟨x, hw, hq⟩
          all_goals simp [ReqFut.poll, StreamFuture.poll, hf, he, h1, h2, hg, pollStreamBlock, hq] at hp
    | some v =>
      obtain ⟨id, t, F⟩ := v
      rw [hf] at h2
      obtain ⟨rfl, hb, hF⟩ := h2
      rcases F with (em | em) | _
      · exact absurd hF (by simp [StreamStageOk])
      · have hr : Ready E em := Or.inl hF
        rcases pollStreamEmitting_cases hs hr E.id t with ⟨hw, em', hem', hq⟩ | ⟨hw, hq⟩ | ⟨x, hw, hq⟩
        all_goals simp [ReqFut.poll, StreamFuture.poll, hf, pollStreamBlock, hq] at hp
      · exact Or.inl (by simp [phOf, hf])
  | items x =>
    rcases hf : x.fut with _ | _ | _
    · cases hl : x.live
      · simp [ReqFut.poll, ResponseStream.pollNext, hf, hl] at hp
      · rcases select_cases hs x.timeout with h | ⟨e, h⟩ | h | h
        all_goals simp [ReqFut.poll, ResponseStream.pollNext, pollNextBlock, hf, hl, h] at hp
    · rcases select_cases hs x.timeout with h | ⟨e, h⟩ | h | h
      all_goals simp [ReqFut.poll, ResponseStream.pollNext, pollNextBlock, hf, h] at hp
    · exact Or.inl (by simp [phOf, hf])

/-- What a request keeps. -/
def reqKey (q : Req) : ReqKind × Nat × Origin × Event × ReqPhase := (q.kind, q.conn, q.origin, q.event, q.phase)

variable {CB : Type} {cfg : Config CB}

/-- What does not belong to the request leaves it in its phase. -/
theorem other_req {s s' : Endpoint.State CB} {op : Endpoint.Op} {r : Nat} (ho : owns r op = false) (hs : StepR cfg s op s') :
    (s'.reqs r).map reqKey = (s.reqs r).map reqKey := by
  cases hs
  all_goals try rfl
  all_goals simp only [owns, decide_eq_false_iff_not] at ho
  all_goals simp only [upd_apply, reqKey]
  all_goals split
  all_goals simp_all [reqKey]

theorem phase_map {o o' : Option Req} (h : o'.map reqKey = o.map reqKey) : phaseOfReq o' = phaseOfReq o := by
  cases o <;> cases o' <;> simp_all [phaseOfReq, reqKey]

theorem ctxOf_ext {s s' : Endpoint.State CB} (h : Ext s s') {ctx : Endpoint.Ctx} {x : Nat × Option UInt64} (hc : ctxOf cfg s ctx = some x) : ctxOf cfg s' ctx = some x := by
  cases ctx with
  | conn c => exact hc
  | task t =>
    simp only [ctxOf] at hc ⊢
    split at hc
    · rename_i k hk
      obtain ⟨k', hk', h1, h2, h3⟩ := h.tasks t k hk
      rw [hk']
      simp only [userCallback, h1, h2, h3] at hc ⊢
      exact hc
    · cases hc

/-- The invariant. -/
structure J (cfg : Config CB) (a : Params P) (m : M CB P) (E : Event) : Prop where
  fut : FutOk a E m.fut
  run : m.gone = false → phRun a.kind (phaseOfReq (m.s.reqs a.r)) m.todo = some (phOf m.fut)
  ev : ∀ x ∈ m.todo, EvOk E x
  req : ∀ q, m.s.reqs a.r = some q → q.kind = a.kind ∧ q.conn = a.conn ∧ q.origin = a.ctx.origin ∧ q.event = E
  ctx : ctxOf cfg m.s a.ctx = some (a.conn, a.ref)
  re : Endpoint.Reachable cfg m.s
  gone : m.gone = true → m.todo = []

theorem phaseOfReq_new {o : Option Req} (h : phaseOfReq o = .new) : o = none := by
  cases o with
  | none => rfl
  | some q => simp only [phaseOfReq] at h; split at h <;> cases h

theorem phStep_phRun {kind : ReqKind} {p q : Ph} {x : Act} {rest : List Act} (h : phRun kind p (x :: rest) = some q) :
    ∃ p', phStep kind p x = some p' ∧ phRun kind p' rest = some q := by
  simpa only [phRun, Option.bind_eq_some_iff] using h

theorem phRun_ne_new {kind : ReqKind} {p q : Ph} {l : List Act} (h : phRun kind p l = some q) (hq : q = .new) : p = .new := by
  induction l generalizing p with
  | nil => simpa [phRun, hq] using h
  | cons x l ih =>
    obtain ⟨p', h1, h2⟩ := phStep_phRun h
    have := ih h2
    subst this
    cases p <;> cases x <;> simp only [phStep] at h1 <;> try split at h1
    all_goals cases h1

theorem futOk_built {a : Params P} {E : Event} {f : ReqFut P} (h : FutOk a E f) (hp : phOf f ≠ .new) : Built a E := by
  cases f with
  | reply f =>
    have h2 := h.2
    simp only [phOf] at hp
    split at h2
    · rename_i hf; simp [hf] at hp
    · exact h2.2.1
  | stream f =>
    have h2 := h.2
    simp only [phOf] at hp
    split at h2
    · rename_i hf; simp [hf] at hp
    · exact h2.2.1
  | items x => exact h.2.2.1

/-- The next act is possible, and does what it says. -/
theorem act_step {a : Params P} {m : M CB P} {E : Event} (j : J cfg a m E) (hg : m.gone = false) {x : Act} {rest : List Act} (ht : m.todo = x :: rest)
    (hx : Truthful cfg a m.s x) :
    ∃ s', Endpoint.step cfg m.s (opOf a x) = some s' ∧ Claimed cfg a m.s x s' ∧
      phRun a.kind (phaseOfReq (s'.reqs a.r)) rest = some (phOf m.fut) ∧
      (∀ q, s'.reqs a.r = some q → q.kind = a.kind ∧ q.conn = a.conn ∧ q.origin = a.ctx.origin ∧ q.event = E) := by
  have hrun := j.run hg
  rw [ht] at hrun
  obtain ⟨p', h1, h2⟩ := phStep_phRun hrun
  have hev := j.ev x (by simp [ht])
  cases hq : m.s.reqs a.r with
  | none =>
    simp only [hq, phaseOfReq] at h1
    cases x <;> simp only [phStep] at h1
    all_goals try cases h1
    rename_i e
    obtain rfl : e = E := hev
    have hb : Built a e := by
      refine futOk_built j.fut fun hn => ?_
      have := phRun_ne_new h2 hn
      cases this
    have hev : ctxEvent a.ref a.ns a.name e.data e.id = e := hb.symm
    refine ⟨_, by simp only [opOf, Endpoint.step, hq, j.ctx]; rfl, ?_, ?_, ?_⟩
    · simp [Claimed, setReq, upd_apply, hev]
    · simpa [setReq, upd_apply, phaseOfReq] using h2
    · intro q hq'
      simp [setReq, upd_apply] at hq'
      subst hq'
      exact ⟨rfl, rfl, rfl, hev⟩
  | some q =>
    obtain ⟨k1, k2, k3, k4⟩ := j.req q hq
    simp only [hq, phaseOfReq] at h1
    cases hph : q.phase <;> simp only [hph] at h1 <;> cases x <;> simp only [phStep] at h1
    all_goals try cases h1
    · rename_i e
      obtain rfl : e = E := hev
      refine ⟨_, by simp only [opOf, Endpoint.step, hq, hph, if_pos]; rfl, ?_, ?_, ?_⟩
      · simp [Claimed, setReq, upd_apply, k2, k3, k4, hq]
      · simpa [setReq, upd_apply, phaseOfReq] using h2
      · intro q' hq'
        simp [setReq, upd_apply] at hq'
        subst hq'
        exact ⟨k1, k2, k3, k4⟩
    · refine ⟨_, by simp only [opOf, Endpoint.step, hq, hph, if_pos]; rfl, ?_, ?_, ?_⟩
      · simp [Claimed, setReq, upd_apply, hq]
      · simpa [setReq, upd_apply, phaseOfReq] using h2
      · intro q' hq'
        simp [setReq, upd_apply] at hq'
        subst hq'
        exact ⟨k1, k2, k3, k4⟩
    · rename_i e
      obtain ⟨q', rest', hq1, hbuf⟩ := hx
      rw [hq] at hq1
      cases hq1
      refine ⟨_, by simp only [opOf, Endpoint.step, hq, hph, if_pos, hbuf]; rfl, ?_, ?_, ?_⟩
      · simp [Claimed, setReq, upd_apply, hq, hbuf]
      · simp only [setReq, upd_apply, if_pos, k1, phaseOfReq]
        by_cases hc : a.kind = .single ∨ e.eventType = .end
        · rw [if_pos hc] at h2 ⊢
          exact h2
        · rw [if_neg hc] at h2 ⊢
          exact h2
      · intro q' hq'
        simp [setReq, upd_apply] at hq'
        subst hq'
        exact ⟨k1, k2, k3, k4⟩
    · obtain ⟨q', hq1, hbuf, hl, hc⟩ := hx
      rw [hq] at hq1
      cases hq1
      refine ⟨_, by simp only [opOf, Endpoint.step, hq]; rw [if_pos ⟨hph, hbuf, hl, hc⟩], ?_, ?_, ?_⟩
      · simp [Claimed, setReq, upd_apply, hq]
      · simp only [setReq, upd_apply, if_pos, k1, phaseOfReq]
        by_cases hc : a.kind = .single
        · rw [if_pos hc] at h2 ⊢
          exact h2
        · rw [if_neg hc] at h2 ⊢
          exact h2
      · intro q' hq'
        simp [setReq, upd_apply] at hq'
        subst hq'
        exact ⟨k1, k2, k3, k4⟩
    · refine ⟨_, by simp only [opOf, Endpoint.step, hq, hph, if_pos]; rfl, ?_, ?_, ?_⟩
      · simp [Claimed, setReq, upd_apply, hq]
      · simpa [setReq, upd_apply, phaseOfReq] using h2
      · intro q' hq'
        simp [setReq, upd_apply] at hq'
        subst hq'
        exact ⟨k1, k2, k3, k4⟩
    · rename_i id
      obtain rfl : id = E.id := hev
      refine ⟨_, by simp only [opOf, Endpoint.step, hq, hph]; rfl, ?_, ?_, ?_⟩
      · simp [Claimed, setReq, upd_apply, hq, unlisten, k2, k4]
      · simpa [setReq, upd_apply, phaseOfReq, unlisten] using h2
      · intro q' hq'
        simp [setReq, upd_apply, unlisten] at hq'
        subst hq'
        exact ⟨k1, k2, k3, k4⟩

theorem j_step {a : Params P} {m m' : M CB P} {E : Event} (j : J cfg a m E) (hs : Step cfg a m m') : ∃ E', J cfg a m' E' := by
  cases hs with
  | poll env hsane hg ht =>
    obtain ⟨E', h1, h2, h3, h4, _⟩ := poll_spec hsane j.fut
    have hr := j.run hg
    rw [ht] at hr
    simp only [phRun, Option.some.injEq] at hr
    refine ⟨E', h1, fun _ => by simpa only [hr] using h2, h3, ?_, j.ctx, j.re, fun h => by simp [hg] at h⟩
    intro q hq
    have hne : phOf m.fut ≠ .new := by
      intro hn
      rw [hn] at hr
      have := phaseOfReq_new hr
      simp only at hq
      rw [this] at hq
      cases hq
    rw [h4 hne]
    exact j.req q hq
  | act ht hx hs =>
    have hg : m.gone = false := by
      cases h : m.gone with
      | false => rfl
      | true => have := j.gone h; rw [ht] at this; cases this
    obtain ⟨s1, h1, h2, h3, h4⟩ := act_step j hg ht hx
    rw [hs] at h1
    cases h1
    have he := (stepR_of_step hs).ext
    exact ⟨E, j.fut, fun _ => h3, fun y hy => j.ev y (by simp [ht, hy]), h4, ctxOf_ext he j.ctx, j.re.step hs, fun h => by simp [hg] at h⟩
  | other ho hs =>
    have hr := other_req ho (stepR_of_step hs)
    have he := (stepR_of_step hs).ext
    refine ⟨E, j.fut, fun hg => by simp only [phase_map hr]; exact j.run hg, j.ev, ?_, ctxOf_ext he j.ctx, j.re.step hs, j.gone⟩
    intro q' hq'
    simp only at hq'
    cases hq : m.s.reqs a.r with
    | none => simp [hq, hq'] at hr
    | some q =>
      simp [hq, hq', reqKey] at hr
      have := j.req q hq
      simp_all
  | drop hg ht =>
    cases hd : Endpoint.step cfg m.s (.drop a.r) with
    | none => exact ⟨E, j.fut, fun h => by simp at h, j.ev, by simpa [hd] using j.req, by simpa [hd] using j.ctx, by simpa [hd] using j.re, fun _ => ht⟩
    | some s' =>
      have he := (stepR_of_step hd).ext
      refine ⟨E, j.fut, fun h => by simp at h, j.ev, ?_, by simpa [hd] using ctxOf_ext he j.ctx, by simpa [hd] using j.re.step hd, fun _ => ht⟩
      intro q' hq'
      simp only [hd, Option.getD_some] at hq'
      cases hq : m.s.reqs a.r with
      | none => simp [Endpoint.step, hq] at hd
      | some q =>
        obtain ⟨q1, h1, h2, h3, h4, h5, _⟩ := he.reqs a.r q hq
        rw [hq'] at h1
        cases h1
        have := j.req q hq
        simp_all

theorem j_reach {a : Params P} {m : M CB P} (h : Reach cfg a m) : ∃ E, J cfg a m E := by
  induction h with
  | init t h hr hc =>
    refine ⟨Event.new 0 none "" [] none .initiator, futOk_start a t _, fun _ => ?_, by simp, by simp [hr], hc, h, by simp⟩
    simp [phRun, hr, phaseOfReq, phOf_start]
  | step _ hs ih =>
    obtain ⟨E, j⟩ := ih
    exact j_step j hs

end Bromine.Refine
