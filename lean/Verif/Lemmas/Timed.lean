import Verif.Spec.Timed
import Verif.Lemmas.Refine
/-
Timeouts (Model/Timed.lean): what one poll does, and the invariant of a sequence of polls.
-/
namespace Bromine.Refine
open Spec
set_option linter.unusedSimpArgs false
variable {P : Type}

theorem Timed.after_snoc (s : Timed P) (xs : List (Tick P)) (x : Tick P) : s.after (xs ++ [x]) = ((s.after xs).poll x).2.1 := by
  induction xs generalizing s with
  | nil => rfl
  | cons y ys ih => exact ih _

theorem Timed.history_snoc (s : Timed P) (xs : List (Tick P)) (x : Tick P) :
    s.history (xs ++ [x]) = s.history xs ++ [{ tick := x, got := ((s.after xs).poll x).1, effects := ((s.after xs).poll x).2.2 }] := by
  induction xs generalizing s with
  | nil => rfl
  | cons y ys ih => exact congrArg (_ :: ·) (ih _)

/-- The timeout of the request is in the future. -/
def TimeOk (a : Params P) (t : Option Nat) : ReqFut P → Prop
  | .reply f => match f.fut with | none => f.emitMetadata = none ∨ f.timeout = t | some (_, t', _) => t' = t.getD a.timeout
  | .stream f => match f.fut with | none => f.emitMetadata = none ∨ f.timeout = t | some (_, t', _) => t' = t.getD a.timeout
  | .items x => x.timeout = t.getD a.timeout

theorem timeOk_start (a : Params P) (t : Option Nat) : TimeOk a t (a.start t) := by
  unfold Params.start
  split <;> exact Or.inr rfl

/-- An event has been written. -/
def wrote (env : Env P) (eff : List Effect) : Prop := ∃ e, Effect.write e ∈ eff ∧ env.writing e = .ready (.ok ())

theorem replyResult_timeout (e : Event) : replyResult e ≠ .err .timeout := by
  intro h
  unfold replyResult at h
  split at h
  · cases hp : e.payload errorPayload with
    | ok d => simp [hp] at h
    | panic => simp [hp] at h
    | hang => simp [hp] at h
    | err x =>
      simp [hp] at h
      subst h
      simp only [Event.payload, errorPayload, ErrorEventData.fromPayload, readU16, readU32, readExact] at hp
      by_cases h1 : 2 ≤ e.data.length
      · by_cases h2 : 4 ≤ e.data.length - 2
        · by_cases h3 : (UInt32.ofNat (beVal ((e.data.drop 2).take 4))).toNat ≤ (e.data.drop 6).length
          · simp [h1, h2] at hp
            rw [if_pos (by simpa using h3)] at hp
            simp only [Outcome.bind_ok] at hp
            split at hp <;> cases hp
          · simp [h1, h2] at hp
            rw [if_neg (by simpa using h3)] at hp
            cases hp
        · simp [h1, h2] at hp
      · simp [h1] at hp
  · cases h

/-- The context of a request carries the default timeout. -/
theorem emit_timeout (a : Params P) {m : EventMetadata P} {ctx : Context} (h1 : a.emit.metadata = some m) (h2 : m.ctx = some ctx) : ctx.defaultReplyTimeout = a.timeout := by
  unfold Params.emit at h1
  cases hns : a.ns <;> cases href : a.ref <;>
    simp [hns, href, EmitFuture.new, Context.emit, Context.emitTo, StreamEmitter.emit, StreamEmitter.emitTo, StreamEmitter.emitResponse, StreamEmitter.emitResponseTo, EventMetadata.new] at h1 <;>
    subst h1 <;> simp at h2 <;> subst h2 <;> rfl

/-- What a poll of an `await_reply` has to do with its timer. -/
structure Single (T : Nat) (env : Env P) (pre : ReqFut P) (got : Got) (post : ReqFut P) (eff : List Effect) : Prop where
  /-- the time is up -/
  fired : TimedOut got → (pre.sleeping = true ∨ wrote env eff) ∧ env.timer T = true
  sleeps : post.sleeping = true → pre.sleeping = true ∨ wrote env eff
  waits : got = .pending → (pre.sleeping = true ∨ wrote env eff) → post.sleeping = true ∧ env.timer T = false
  once : wrote env eff → phOf pre = .new ∨ phOf pre = .registered
  early : (phOf post = .new ∨ phOf post = .registered) → (phOf pre = .new ∨ phOf pre = .registered) ∧ ¬ wrote env eff
  pend : got = .pending → phOf post ≠ .finished

theorem select_timer {env : Env P} (hs : Sane env) {t : Nat} : (selectReply env t = .pending → env.timer t = false) ∧ (selectReply env t = .ready (.err .timeout) → env.timer t = true) := by
  unfold selectReply
  have := hs.channel
  cases h1 : env.timer t <;> cases h2 : env.timerFirst <;> cases h3 : env.channel with
  | pending => simp
  | ready x => cases x <;> simp
  | panic => exact absurd h3 this

theorem single_poll {a : Params P} {t : Option Nat} {env : Env P} (hb : Behaves a env) {E : Event} {f : ReplyFuture P} (h : FutOk a E (.reply f)) (ht : TimeOk a t (.reply f)) :
    Single (t.getD a.timeout) env (.reply f) ((ReqFut.reply f).poll env).1 ((ReqFut.reply f).poll env).2.1 ((ReqFut.reply f).poll env).2.2 := by
  have hs := hb.sane
  obtain ⟨hk, h2⟩ := h
  have hst := select_timer hs (t := t.getD a.timeout)
  cases hf : f.fut with
  | none =>
    rw [hf] at h2
    simp only [TimeOk, hf] at ht
    rcases h2 with he | he
    · constructor <;> simp [TimedOut, ReqFut.poll, ReplyFuture.poll, hf, he, ReqFut.sleeping, wrote, phOf]
    · obtain ⟨m, ctx, h1, h2, h3, h4, hg'⟩ := getEvent_emit a env
      have hT := emit_timeout a h1 h2
      have ht : f.timeout = t := by simpa [he] using ht
      have henc : ∀ x, m.getEvent env.enc env.freshId = .err x → x ≠ .timeout := by
        rintro x hx rfl
        apply hb.payload
        have hm := h1
        have hctx : m.event = none ∧ (∃ c, m.ctx = some c) ∧ m.eventName = some a.name ∧ m.eventNamespace = some a.ns ∧
            m.payload = some a.payload ∧ m.resId = some a.ref ∧ m.eventType = some (match a.ref with | none => .initiator | some _ => .response) := by
          unfold Params.emit at hm
          cases hns : a.ns <;> cases href : a.ref <;>
            simp [hns, href, EmitFuture.new, Context.emit, Context.emitTo, StreamEmitter.emit, StreamEmitter.emitTo, StreamEmitter.emitResponse, StreamEmitter.emitResponseTo, EventMetadata.new] at hm <;>
            subst hm <;> simp
        obtain ⟨g1, ⟨c, g2⟩, g3, g4, g5, g6, g7⟩ := hctx
        cases hee : env.enc a.payload <;> simp [EventMetadata.getEvent, EventMetadata.buildEvent, takeField, g1, g2, g3, g4, g5, g6, g7, hee] at hx
        subst hx; rfl
      rcases hg' with ⟨x, hg⟩ | hg | hg | ⟨E', m', hg, hm', hb'⟩
      · have hx := henc x hg
        constructor <;> simp [ReqFut.poll, ReplyFuture.poll, hf, he, h1, h2, hg, ReqFut.sleeping, wrote, phOf, TimedOut]
        · split <;> simp_all
      · constructor <;> simp [TimedOut, ReqFut.poll, ReplyFuture.poll, hf, he, h1, h2, hg, ReqFut.sleeping, wrote, phOf]
      · constructor <;> simp [TimedOut, ReqFut.poll, ReplyFuture.poll, hf, he, h1, h2, hg, ReqFut.sleeping, wrote, phOf]
      · have hr : Ready E' { a.emit with metadata := some m' } := Or.inr ⟨h3, h4, m', rfl, hm'⟩
        rcases pollEmitting_cases hs hr E'.id (t.getD a.timeout) with ⟨hw, em', hem, hq⟩ | ⟨hw, hq⟩ | ⟨x, hw, hq⟩
        · constructor <;> simp [TimedOut, ReqFut.poll, ReplyFuture.poll, hf, he, h1, h2, hg, ht, hT, pollReplyBlock, hq, ReqFut.sleeping, wrote, phOf, hw]
        · rcases select_cases hs (t.getD a.timeout) with h | ⟨e, h⟩ | h | h
          · constructor <;> simp [TimedOut, ReqFut.poll, ReplyFuture.poll, hf, he, h1, h2, hg, ht, hT, pollReplyBlock, hq, pollSelect, h, ReqFut.sleeping, wrote, phOf, hw, hst.1 h]
          · have hrx := replyResult_timeout e
            cases hrr : replyResult e with
            | err x =>
              constructor <;> simp [ReqFut.poll, ReplyFuture.poll, hf, he, h1, h2, hg, ht, hT, pollReplyBlock, hq, pollSelect, h, hrr, ReqFut.sleeping, wrote, phOf, hw, TimedOut]
              split <;> simp_all
            | _ => constructor <;> simp [TimedOut, ReqFut.poll, ReplyFuture.poll, hf, he, h1, h2, hg, ht, hT, pollReplyBlock, hq, pollSelect, h, hrr, ReqFut.sleeping, wrote, phOf, hw]
          · constructor <;> simp [TimedOut, ReqFut.poll, ReplyFuture.poll, hf, he, h1, h2, hg, ht, hT, pollReplyBlock, hq, pollSelect, h, ReqFut.sleeping, wrote, phOf, hw]
          · constructor <;> simp [TimedOut, ReqFut.poll, ReplyFuture.poll, hf, he, h1, h2, hg, ht, hT, pollReplyBlock, hq, pollSelect, h, ReqFut.sleeping, wrote, phOf, hw, hst.2 h]
        · have hx : x ≠ .timeout := by rintro rfl; exact hb.writing _ hw
          constructor <;> simp [ReqFut.poll, ReplyFuture.poll, hf, he, h1, h2, hg, ht, hT, pollReplyBlock, hq, ReqFut.sleeping, wrote, phOf, hw, TimedOut]
          split <;> simp_all
  | some v =>
    obtain ⟨id, t', F⟩ := v
    rw [hf] at h2
    simp only [TimeOk, hf] at ht
    subst ht
    obtain ⟨rfl, hbu, hF⟩ := h2
    rcases F with (em | em | _) | _
    · exact absurd hF (by simp [ReplyStageOk])
    · have hr : Ready E em := Or.inl hF
      rcases pollEmitting_cases hs hr E.id (t.getD a.timeout) with ⟨hw, em', hem', hq⟩ | ⟨hw, hq⟩ | ⟨x, hw, hq⟩
      · constructor <;> simp [TimedOut, ReqFut.poll, ReplyFuture.poll, hf, pollReplyBlock, hq, ReqFut.sleeping, wrote, phOf, hw]
      · rcases select_cases hs (t.getD a.timeout) with h | ⟨e, h⟩ | h | h
        · constructor <;> simp [TimedOut, ReqFut.poll, ReplyFuture.poll, hf, pollReplyBlock, hq, pollSelect, h, ReqFut.sleeping, wrote, phOf, hw, hst.1 h]
        · have hrx := replyResult_timeout e
          cases hrr : replyResult e with
          | err x =>
            constructor <;> simp [ReqFut.poll, ReplyFuture.poll, hf, pollReplyBlock, hq, pollSelect, h, hrr, ReqFut.sleeping, wrote, phOf, hw, TimedOut]
            split <;> simp_all
          | _ => constructor <;> simp [TimedOut, ReqFut.poll, ReplyFuture.poll, hf, pollReplyBlock, hq, pollSelect, h, hrr, ReqFut.sleeping, wrote, phOf, hw]
        · constructor <;> simp [TimedOut, ReqFut.poll, ReplyFuture.poll, hf, pollReplyBlock, hq, pollSelect, h, ReqFut.sleeping, wrote, phOf, hw]
        · constructor <;> simp [TimedOut, ReqFut.poll, ReplyFuture.poll, hf, pollReplyBlock, hq, pollSelect, h, ReqFut.sleeping, wrote, phOf, hw, hst.2 h]
      · have hx : x ≠ .timeout := by rintro rfl; exact hb.writing _ hw
        constructor <;> simp [ReqFut.poll, ReplyFuture.poll, hf, pollReplyBlock, hq, ReqFut.sleeping, wrote, phOf, hw, TimedOut]
        split <;> simp_all
    · rcases select_cases hs (t.getD a.timeout) with h | ⟨e, h⟩ | h | h
      · constructor <;> simp [TimedOut, ReqFut.poll, ReplyFuture.poll, hf, pollReplyBlock, pollSelect, h, ReqFut.sleeping, wrote, phOf, hst.1 h]
      · have hrx := replyResult_timeout e
        cases hrr : replyResult e with
        | err x =>
          constructor <;> simp [ReqFut.poll, ReplyFuture.poll, hf, pollReplyBlock, pollSelect, h, hrr, ReqFut.sleeping, wrote, phOf, TimedOut]
          split <;> simp_all
        | _ => constructor <;> simp [TimedOut, ReqFut.poll, ReplyFuture.poll, hf, pollReplyBlock, pollSelect, h, hrr, ReqFut.sleeping, wrote, phOf]
      · constructor <;> simp [TimedOut, ReqFut.poll, ReplyFuture.poll, hf, pollReplyBlock, pollSelect, h, ReqFut.sleeping, wrote, phOf]
      · constructor <;> simp [TimedOut, ReqFut.poll, ReplyFuture.poll, hf, pollReplyBlock, pollSelect, h, ReqFut.sleeping, wrote, phOf, hst.2 h]
    · constructor <;> simp [TimedOut, ReqFut.poll, ReplyFuture.poll, hf, pollReplyBlock, ReqFut.sleeping, wrote, phOf]

/-- What a poll of a `stream_replies`, or of its stream, has to do with the timer. -/
structure Items (T : Nat) (env : Env P) (pre : ReqFut P) (got : Got) (post : ReqFut P) : Prop where
  fired : TimedOut got → (pre.sleeping = true ∨ ∃ x, pre = .items x ∧ x.live = true) ∧ env.timer T = true
  sleeps : post.sleeping = true → got = .pending ∧ (pre.sleeping = true ∨ ∃ x, pre = .items x ∧ x.live = true)
  waits : got = .pending → (∃ x, pre = .items x) → post.sleeping = true ∧ env.timer T = false
  /-- the stream is at its beginning or has given an item -/
  live : ∀ y, post = .items y → y.live = true → got = .opened (.ok ()) ∨ ∃ e, got = .item (some (.ok e))
  /-- a stream stays one -/
  stays : ∀ x, pre = .items x → ∃ y, post = .items y ∧ (y.live = false ∨ y.fut = none)
  opens : (got = .opened (.ok ()) ∨ ∃ e, got = .item (some (.ok e))) → ∃ y, post = .items y

theorem emit_enc {a : Params P} {env : Env P} {m : EventMetadata P} (hm : a.emit.metadata = some m) {x : Error} (hx : m.getEvent env.enc env.freshId = .err x) : env.enc a.payload = .err x := by
  have hctx : m.event = none ∧ (∃ c, m.ctx = some c) ∧ m.eventName = some a.name ∧ m.eventNamespace = some a.ns ∧
      m.payload = some a.payload ∧ m.resId = some a.ref ∧ m.eventType = some (match a.ref with | none => .initiator | some _ => .response) := by
    unfold Params.emit at hm
    cases hns : a.ns <;> cases href : a.ref <;>
      simp [hns, href, EmitFuture.new, Context.emit, Context.emitTo, StreamEmitter.emit, StreamEmitter.emitTo, StreamEmitter.emitResponse, StreamEmitter.emitResponseTo, EventMetadata.new] at hm <;>
      subst hm <;> simp
  obtain ⟨g1, ⟨c, g2⟩, g3, g4, g5, g6, g7⟩ := hctx
  cases hee : env.enc a.payload <;> simp [EventMetadata.getEvent, EventMetadata.buildEvent, takeField, g1, g2, g3, g4, g5, g6, g7, hee] at hx
  subst hx; rfl

theorem stream_poll {a : Params P} {t : Option Nat} {env : Env P} (hb : Behaves a env) {E : Event} {f : StreamFuture P} (h : FutOk a E (.stream f)) :
    Items (t.getD a.timeout) env (.stream f) ((ReqFut.stream f).poll env).1 ((ReqFut.stream f).poll env).2.1 := by
  have hs := hb.sane
  obtain ⟨hk, h2⟩ := h
  cases hf : f.fut with
  | none =>
    rw [hf] at h2
    rcases h2 with he | he
    · constructor <;> simp [TimedOut, ReqFut.poll, StreamFuture.poll, hf, he, ReqFut.sleeping]
    · obtain ⟨m, ctx, h1, h2, h3, h4, hg'⟩ := getEvent_emit a env
      rcases hg' with ⟨x, hg⟩ | hg | hg | ⟨E', m', hg, hm', hb'⟩
      · have hx : x ≠ .timeout := by rintro rfl; exact hb.payload (emit_enc h1 hg)
        constructor <;> simp [TimedOut, ReqFut.poll, StreamFuture.poll, hf, he, h1, h2, hg, ReqFut.sleeping]
        split <;> simp_all
      · constructor <;> simp [TimedOut, ReqFut.poll, StreamFuture.poll, hf, he, h1, h2, hg, ReqFut.sleeping]
      · constructor <;> simp [TimedOut, ReqFut.poll, StreamFuture.poll, hf, he, h1, h2, hg, ReqFut.sleeping]
      · have hr : Ready E' { a.emit with metadata := some m' } := Or.inr ⟨h3, h4, m', rfl, hm'⟩
        rcases pollStreamEmitting_cases hs hr E'.id (f.timeout.getD ctx.defaultReplyTimeout) with ⟨hw, em', hem, hq⟩ | ⟨hw, hq⟩ | ⟨x, hw, hq⟩
        · constructor <;> simp [TimedOut, ReqFut.poll, StreamFuture.poll, hf, he, h1, h2, hg, pollStreamBlock, hq, ReqFut.sleeping]
        · constructor <;> simp [TimedOut, ReqFut.poll, StreamFuture.poll, hf, he, h1, h2, hg, pollStreamBlock, hq, ReqFut.sleeping, ResponseStream.new]
        · have hx : x ≠ .timeout := by rintro rfl; exact hb.writing _ hw
          constructor <;> simp [TimedOut, ReqFut.poll, StreamFuture.poll, hf, he, h1, h2, hg, pollStreamBlock, hq, ReqFut.sleeping]
          split <;> simp_all
  | some v =>
    obtain ⟨id, t', F⟩ := v
    rw [hf] at h2
    obtain ⟨rfl, hbu, hF⟩ := h2
    rcases F with (em | em) | _
    · exact absurd hF (by simp [StreamStageOk])
    · have hr : Ready E em := Or.inl hF
      rcases pollStreamEmitting_cases hs hr E.id t' with ⟨hw, em', hem', hq⟩ | ⟨hw, hq⟩ | ⟨x, hw, hq⟩
      · constructor <;> simp [TimedOut, ReqFut.poll, StreamFuture.poll, hf, pollStreamBlock, hq, ReqFut.sleeping]
      · constructor <;> simp [TimedOut, ReqFut.poll, StreamFuture.poll, hf, pollStreamBlock, hq, ReqFut.sleeping, ResponseStream.new]
      · have hx : x ≠ .timeout := by rintro rfl; exact hb.writing _ hw
        constructor <;> simp [TimedOut, ReqFut.poll, StreamFuture.poll, hf, pollStreamBlock, hq, ReqFut.sleeping]
        split <;> simp_all
    · constructor <;> simp [TimedOut, ReqFut.poll, StreamFuture.poll, hf, pollStreamBlock, ReqFut.sleeping]

theorem items_poll {a : Params P} {t : Option Nat} {env : Env P} (hb : Behaves a env) {E : Event} {x : ResponseStream} (h : FutOk a E (.items x)) (ht : TimeOk a t (.items x)) :
    Items (t.getD a.timeout) env (.items x) ((ReqFut.items (P := P) x).poll env).1 ((ReqFut.items x).poll env).2.1 := by
  have hs := hb.sane
  obtain ⟨hk, hid, hbu, hlv⟩ := h
  have ht : x.timeout = t.getD a.timeout := ht
  have hst := select_timer hs (t := x.timeout)
  rw [← ht]
  rcases hf : x.fut with _ | _ | _
  · cases hl : x.live
    · constructor <;> simp [TimedOut, ReqFut.poll, ResponseStream.pollNext, hf, hl, ReqFut.sleeping]
    · rcases select_cases hs x.timeout with h | ⟨e, h⟩ | h | h
      · constructor <;> simp [TimedOut, ReqFut.poll, ResponseStream.pollNext, pollNextBlock, hf, hl, h, ReqFut.sleeping, hst.1 h]
      · constructor <;> simp [TimedOut, ReqFut.poll, ResponseStream.pollNext, pollNextBlock, hf, hl, h, ReqFut.sleeping]
      · constructor <;> simp [TimedOut, ReqFut.poll, ResponseStream.pollNext, pollNextBlock, hf, hl, h, ReqFut.sleeping]
      · constructor <;> simp [TimedOut, ReqFut.poll, ResponseStream.pollNext, pollNextBlock, hf, hl, h, ReqFut.sleeping, hst.2 h]
  · have hlv := hlv (by simp [hf])
    rcases select_cases hs x.timeout with h | ⟨e, h⟩ | h | h
    · constructor <;> simp [TimedOut, ReqFut.poll, ResponseStream.pollNext, pollNextBlock, hf, hlv, h, ReqFut.sleeping, hst.1 h]
    · constructor <;> simp [TimedOut, ReqFut.poll, ResponseStream.pollNext, pollNextBlock, hf, hlv, h, ReqFut.sleeping]
    · constructor <;> simp [TimedOut, ReqFut.poll, ResponseStream.pollNext, pollNextBlock, hf, hlv, h, ReqFut.sleeping]
    · constructor <;> simp [TimedOut, ReqFut.poll, ResponseStream.pollNext, pollNextBlock, hf, hlv, h, ReqFut.sleeping, hst.2 h]
  · have hlv := hlv (by simp [hf])
    constructor <;> simp [TimedOut, ReqFut.poll, ResponseStream.pollNext, pollNextBlock, hf, hlv, ReqFut.sleeping]

/-- A poll keeps the timeout. -/
theorem poll_timeOk {a : Params P} {t : Option Nat} {env : Env P} (hs : Sane env) {E : Event} {f : ReqFut P} (h : FutOk a E f) (ht : TimeOk a t f) : TimeOk a t (f.poll env).2.1 := by
  cases f with
  | reply f =>
    obtain ⟨hk, h2⟩ := h
    cases hf : f.fut with
    | none =>
      rw [hf] at h2
      simp only [TimeOk, hf] at ht
      rcases h2 with he | he
      · simp [ReqFut.poll, ReplyFuture.poll, hf, he, TimeOk]
      · have ht : f.timeout = t := by simpa [he] using ht
        obtain ⟨m, ctx, h1, h2, h3, h4, hg'⟩ := getEvent_emit a env
        have hT := emit_timeout a h1 h2
        rcases hg' with ⟨x, hg⟩ | hg | hg | ⟨E', m', hg, hm', hb'⟩
        all_goals simp only [ReqFut.poll, ReplyFuture.poll, hf, he, h1, h2, hg, ht, hT, TimeOk, Option.bind_some]
        all_goals try simp
        generalize pollReplyBlock env E'.id (t.getD a.timeout) _ = z
        rcases z with ⟨z | z | z, z2, z3⟩ <;> simp [TimeOk]
    | some v =>
      obtain ⟨id, t', F⟩ := v
      simp only [TimeOk, hf] at ht
      simp only [ReqFut.poll, ReplyFuture.poll, hf, ht]
      generalize pollReplyBlock env id (t.getD a.timeout) _ = z
      rcases z with ⟨z | z | z, z2, z3⟩ <;> simp [TimeOk]
  | stream f =>
    obtain ⟨hk, h2⟩ := h
    cases hf : f.fut with
    | none =>
      rw [hf] at h2
      simp only [TimeOk, hf] at ht
      rcases h2 with he | he
      · simp [ReqFut.poll, StreamFuture.poll, hf, he, TimeOk]
      · have ht : f.timeout = t := by simpa [he] using ht
        obtain ⟨m, ctx, h1, h2, h3, h4, hg'⟩ := getEvent_emit a env
        have hT := emit_timeout a h1 h2
        rcases hg' with ⟨x, hg⟩ | hg | hg | ⟨E', m', hg, hm', hb'⟩
        · simp [ReqFut.poll, StreamFuture.poll, hf, he, h1, h2, hg, ht, hT, TimeOk]
        · simp [ReqFut.poll, StreamFuture.poll, hf, he, h1, h2, hg, ht, hT, TimeOk]
        · simp [ReqFut.poll, StreamFuture.poll, hf, he, h1, h2, hg, ht, hT, TimeOk]
        · have hr : Ready E' { a.emit with metadata := some m' } := Or.inr ⟨h3, h4, m', rfl, hm'⟩
          rcases pollStreamEmitting_cases hs hr E'.id (t.getD a.timeout) with ⟨hw, em', hem, hq⟩ | ⟨hw, hq⟩ | ⟨x, hw, hq⟩
          all_goals simp [ReqFut.poll, StreamFuture.poll, hf, he, h1, h2, hg, ht, hT, pollStreamBlock, hq, TimeOk, ResponseStream.new]
    | some v =>
      obtain ⟨id, t', F⟩ := v
      rw [hf] at h2
      simp only [TimeOk, hf] at ht
      subst ht
      obtain ⟨rfl, hbu, hF⟩ := h2
      rcases F with (em | em) | _
      · exact absurd hF (by simp [StreamStageOk])
      · have hr : Ready E em := Or.inl hF
        rcases pollStreamEmitting_cases hs hr E.id (t.getD a.timeout) with ⟨hw, em', hem', hq⟩ | ⟨hw, hq⟩ | ⟨x, hw, hq⟩
        all_goals simp [ReqFut.poll, StreamFuture.poll, hf, pollStreamBlock, hq, TimeOk, ResponseStream.new]
      · simp [ReqFut.poll, StreamFuture.poll, hf, pollStreamBlock, TimeOk]
  | items x =>
    have ht : x.timeout = t.getD a.timeout := ht
    rcases hf : x.fut with _ | _ | _
    · cases hl : x.live
      · simpa [ReqFut.poll, ResponseStream.pollNext, hf, hl, TimeOk] using ht
      · rcases select_cases hs x.timeout with h | ⟨e, h⟩ | h | h
        all_goals simpa [ReqFut.poll, ResponseStream.pollNext, pollNextBlock, hf, hl, h, TimeOk] using ht
    · rcases select_cases hs x.timeout with h | ⟨e, h⟩ | h | h
      all_goals simpa [ReqFut.poll, ResponseStream.pollNext, pollNextBlock, hf, h, TimeOk] using ht
    · simpa [ReqFut.poll, ResponseStream.pollNext, pollNextBlock, hf, TimeOk] using ht

theorem behaves_env {a : Params P} {s : Timed P} {x : Tick P} (h : Behaves a x.io) : Behaves a (s.env x) := ⟨⟨h.sane.writing, h.sane.channel⟩, h.writing, h.payload⟩

/-- The invariant: `await_reply`. -/
structure InvS (a : Params P) (t : Option Nat) (h : List (Obs P)) (s : Timed P) : Prop where
  fut : ∃ E, FutOk a E s.fut
  time : TimeOk a t s.fut
  reply : ∃ f, s.fut = .reply f
  awake : s.fut.sleeping = false → s.since = none
  slept : s.fut.sleeping = true → ∃ y ∈ h, Wrote y ∧ s.since = some y.tick.now
  all : s.fut.sleeping = true → ∀ y ∈ h, Wrote y → s.since = some y.tick.now
  early : (phOf s.fut = .new ∨ phOf s.fut = .registered) → ∀ y ∈ h, ¬ Wrote y
  over : phOf s.fut = .finished → ∃ o ∈ h, o.got ≠ .pending

theorem start_single {a : Params P} (hk : a.kind = .single) (t : Option Nat) : ∃ f, a.start t = .reply f := by
  unfold Params.start
  cases t <;> simp [hk]

theorem start_stream {a : Params P} (hk : a.kind = .stream) (t : Option Nat) : ∃ f, a.start t = .stream f := by
  unfold Params.start
  cases t <;> simp [hk]

theorem invS {a : Params P} (hk : a.kind = .single) (t : Option Nat) (xs : List (Tick P)) (hb : ∀ x ∈ xs, Behaves a x.io) :
    InvS a t ((a.timed t).history xs) ((a.timed t).after xs) := by
  have key : ∀ ys : List (Tick P), (∀ x ∈ ys.reverse, Behaves a x.io) → InvS a t ((a.timed t).history ys.reverse) ((a.timed t).after ys.reverse) := by
    intro ys
    induction ys with
    | nil =>
      intro _
      obtain ⟨f, hf⟩ := start_single hk t
      have hn := phOf_start a t
      refine ⟨⟨Event.new 0 none "" [] none .initiator, futOk_start a t _⟩, timeOk_start a t, ⟨f, hf⟩, fun _ => rfl, fun h => ?_, fun h => ?_, fun _ y hy => (by cases hy), fun h => ?_⟩
      rotate_right
      · exact absurd (hn.symm.trans h) (by simp)
      all_goals
        exfalso
        change (a.start t).sleeping = true at h
        rw [hf] at h hn
        simp only [ReqFut.sleeping] at h
        simp only [phOf] at hn
        split at h <;> simp_all
    | cons x ys ih =>
      intro hb
      rw [List.reverse_cons] at hb ⊢
      have ih := ih fun z hz => hb z (by simp only [List.mem_append]; exact Or.inl hz)
      have hx := hb x (by simp)
      rw [Timed.history_snoc, Timed.after_snoc]
      generalize (a.timed t).history ys.reverse = h at ih ⊢
      generalize (a.timed t).after ys.reverse = s at ih ⊢
      obtain ⟨⟨E, hE⟩, hT, ⟨f, hf⟩, hA, hS, hAll, hEr, hOv⟩ := ih
      rw [hf] at hE hT
      have hbx : Behaves a (s.env x) := behaves_env hx
      have hp := single_poll hbx hE hT
      obtain ⟨E', hE', -⟩ := poll_spec hbx.sane hE
      have hT' := poll_timeOk hbx.sane hE hT
      have hpost : ∃ f', (s.fut.poll (s.env x)).2.1 = .reply f' := by
        rw [hf]
        simp only [ReqFut.poll]
        split <;> exact ⟨_, rfl⟩
      rw [← hf] at hp hE' hT'
      have hw : wrote (s.env x) (s.fut.poll (s.env x)).2.2 ↔ Wrote { tick := x, got := (s.poll x).1, effects := (s.poll x).2.2 : Obs P } := Iff.rfl
      have hwr : wrote (s.env x) (s.fut.poll (s.env x)).2.2 → s.fut.sleeping = false := by
        intro h
        have := hp.once h
        rw [hf] at this ⊢
        simp only [phOf] at this
        simp only [ReqFut.sleeping]
        split <;> simp_all
      refine ⟨⟨E', hE'⟩, hT', hpost, ?_, ?_, ?_, ?_, ?_⟩
      · intro h
        have h : (s.fut.poll (s.env x)).2.1.sleeping = false := h
        simp [Timed.poll, h]
      · intro h
        have h : (s.fut.poll (s.env x)).2.1.sleeping = true := h
        have hsi : (s.poll x).2.1.since = some (s.since.getD x.now) := by simp [Timed.poll, h]
        rcases hp.sleeps h with hpre | hwrote
        · obtain ⟨y, hy, h1, h2⟩ := hS hpre
          exact ⟨y, by simp [hy], h1, by rw [hsi, h2]; rfl⟩
        · exact ⟨_, List.mem_append_right _ (List.mem_singleton_self _), hw.1 hwrote, by rw [hsi, hA (hwr hwrote)]; rfl⟩
      · intro h y hy hwy
        have h : (s.fut.poll (s.env x)).2.1.sleeping = true := h
        have hsi : (s.poll x).2.1.since = some (s.since.getD x.now) := by simp [Timed.poll, h]
        rcases List.mem_append.1 hy with hy | hy
        · have hpre : s.fut.sleeping = true := by
            rcases hp.sleeps h with hpre | hwrote
            · exact hpre
            · exact absurd hwy (hEr (hp.once hwrote) y hy)
          rw [hsi, hAll hpre y hy hwy]; rfl
        · obtain rfl := List.mem_singleton.1 hy
          rw [hsi, hA (hwr (hw.2 hwy))]; rfl
      · intro h y hy
        obtain ⟨h1, h2⟩ := hp.early h
        rcases List.mem_append.1 hy with hy | hy
        · exact hEr h1 y hy
        · obtain rfl := List.mem_singleton.1 hy
          exact fun h => h2 (hw.2 h)
      · intro h
        exact ⟨_, List.mem_append_right _ (List.mem_singleton_self _), fun hg => hp.pend hg h⟩
  have := key xs.reverse (by simpa using hb)
  simpa using this

/-- The invariant: `stream_replies`. -/
structure InvI (a : Params P) (t : Option Nat) (h : List (Obs P)) (s : Timed P) : Prop where
  fut : ∃ E, FutOk a E s.fut
  time : TimeOk a t s.fut
  stream : ∀ f, s.fut ≠ .reply f
  awake : s.fut.sleeping = false → s.since = none
  slept : s.fut.sleeping = true → ∃ (y : Obs P) (w : List (Obs P)), SinceLastItem h (y :: w) ∧ (∀ o ∈ y :: w, o.got = .pending) ∧ s.since = some y.tick.now
  live : ∀ x, s.fut = .items x → x.live = true → SinceLastItem h []
  opened : (∃ p ∈ h, Opens p) → ∃ x, s.fut = .items x

theorem sinceLastItem_snoc {h w : List (Obs P)} {o : Obs P} (hs : SinceLastItem h w) : SinceLastItem (h ++ [o]) (w ++ [o]) := by
  obtain ⟨pre, p, rfl, hp⟩ := hs
  exact ⟨pre, p, by simp, hp⟩

theorem invI {a : Params P} (hk : a.kind = .stream) (t : Option Nat) (xs : List (Tick P)) (hb : ∀ x ∈ xs, Behaves a x.io) :
    InvI a t ((a.timed t).history xs) ((a.timed t).after xs) := by
  have key : ∀ ys : List (Tick P), (∀ x ∈ ys.reverse, Behaves a x.io) → InvI a t ((a.timed t).history ys.reverse) ((a.timed t).after ys.reverse) := by
    intro ys
    induction ys with
    | nil =>
      intro _
      obtain ⟨f, hf⟩ := start_stream hk t
      have hs : ((a.timed t).after []).fut = .stream f := hf
      rw [List.reverse_nil]
      refine ⟨⟨Event.new 0 none "" [] none .initiator, futOk_start a t _⟩, timeOk_start a t, ?_, fun _ => rfl, ?_, ?_, ?_⟩
      · intro g hg; rw [hs] at hg; cases hg
      · intro h; rw [hs] at h; cases h
      · intro x hx; rw [hs] at hx; cases hx
      · rintro ⟨p, hp, -⟩; cases hp
    | cons x ys ih =>
      intro hb
      rw [List.reverse_cons] at hb ⊢
      have ih := ih fun z hz => hb z (by simp only [List.mem_append]; exact Or.inl hz)
      have hx := hb x (by simp)
      rw [Timed.history_snoc, Timed.after_snoc]
      generalize (a.timed t).history ys.reverse = h at ih ⊢
      generalize (a.timed t).after ys.reverse = s at ih ⊢
      obtain ⟨⟨E, hE⟩, hT, hN, hA, hS, hL, hO⟩ := ih
      have hbx : Behaves a (s.env x) := behaves_env hx
      have hp : Items (t.getD a.timeout) (s.env x) s.fut (s.fut.poll (s.env x)).1 (s.fut.poll (s.env x)).2.1 := by
        cases hf : s.fut with
        | reply f => exact absurd hf (hN f)
        | stream f => rw [hf] at hE; exact stream_poll hbx hE
        | items z => rw [hf] at hE hT; exact items_poll hbx hE hT
      obtain ⟨E', hE', -⟩ := poll_spec hbx.sane hE
      refine ⟨⟨E', hE'⟩, poll_timeOk hbx.sane hE hT, ?_, ?_, ?_, ?_, ?_⟩
      · intro g hg
        have hg : (s.fut.poll (s.env x)).2.1 = .reply g := hg
        revert hg
        cases hf : s.fut with
        | reply f => exact absurd hf (hN f)
        | stream f => simp only [ReqFut.poll]; split <;> (intro h; cases h)
        | items z => simp only [ReqFut.poll]; split <;> (intro h; cases h)
      · intro h
        have h : (s.fut.poll (s.env x)).2.1.sleeping = false := h
        simp [Timed.poll, h]
      · intro h
        have h : (s.fut.poll (s.env x)).2.1.sleeping = true := h
        have hsi : (s.poll x).2.1.since = some (s.since.getD x.now) := by simp [Timed.poll, h]
        obtain ⟨h1, h2⟩ := hp.sleeps h
        by_cases hpre : s.fut.sleeping = true
        · obtain ⟨y, w, k1, k2, k3⟩ := hS hpre
          refine ⟨y, w ++ [_], sinceLastItem_snoc k1, ?_, by rw [hsi, k3]; rfl⟩
          intro o ho
          rw [← List.cons_append] at ho
          rcases List.mem_append.1 ho with ho | ho
          · exact k2 o ho
          · obtain rfl := List.mem_singleton.1 ho
            exact h1
        · obtain ⟨z, hz, hl⟩ := h2.resolve_left hpre
          refine ⟨_, [], sinceLastItem_snoc (hL z hz hl), ?_, by rw [hsi, hA (by simpa using hpre)]; rfl⟩
          intro o ho
          obtain rfl := List.mem_singleton.1 ho
          exact h1
      · intro y hy hl
        have hy : (s.fut.poll (s.env x)).2.1 = .items y := hy
        exact ⟨h, _, rfl, hp.live y hy hl⟩
      · rintro ⟨p, hp', ho⟩
        rcases List.mem_append.1 hp' with hp' | hp'
        · obtain ⟨z, hz⟩ := hO ⟨p, hp', ho⟩
          obtain ⟨y, hy, -⟩ := hp.stays z hz
          exact ⟨y, hy⟩
        · obtain rfl := List.mem_singleton.1 hp'
          exact hp.opens ho
  have := key xs.reverse (by simpa using hb)
  simpa using this

/-- Cutting a history. -/
theorem Timed.history_cut {s : Timed P} {xs : List (Tick P)} {pre post : List (Obs P)} {o : Obs P} (h : s.history xs = pre ++ o :: post) :
    ∃ ys zs, xs = ys ++ o.tick :: zs ∧ s.history ys = pre ∧ o.got = ((s.after ys).poll o.tick).1 ∧ o.effects = ((s.after ys).poll o.tick).2.2 := by
  induction pre generalizing s xs with
  | nil =>
    cases xs with
    | nil => cases h
    | cons x xs =>
      simp only [Timed.history, List.nil_append, List.cons.injEq] at h
      obtain ⟨rfl, -⟩ := h
      exact ⟨[], xs, rfl, rfl, rfl, rfl⟩
  | cons p pre ih =>
    cases xs with
    | nil => cases h
    | cons x xs =>
      simp only [Timed.history, List.cons_append, List.cons.injEq] at h
      obtain ⟨rfl, h⟩ := h
      obtain ⟨ys, zs, rfl, h1, h2, h3⟩ := ih h
      exact ⟨x :: ys, zs, rfl, by simp [Timed.history, h1], h2, h3⟩

end Bromine.Refine
