import Verif.Props.Emit
/-
C48: polling the futures of `emit`, `await_reply`, `stream_replies` and the reply stream again.
-/
namespace Bromine.Props
open Bromine Bromine.Spec

theorem pollWrite_ends {P : Type} (env : Env P) (f : Fut Event) (h : (pollWrite env f).1 ≠ .pending) : (pollWrite env f).2.1 = .completed := by
  cases f with
  | completed => rfl
  | running e =>
    cases hw : env.writing e with
    | pending => simp [pollWrite, hw] at h
    | panic => simp [pollWrite, hw]
    | ready o => cases o <;> simp_all [pollWrite]

/-- An emit that is over: every further poll panics, or (if it failed to start) reports `InvalidState`. -/
theorem emit_over {P : Type} (env : Env P) (s : EmitFuture P) (h : (EmitFuture.poll env s).1 ≠ .pending) :
    (EmitFuture.poll env s).2.1.fut = some .completed ∨
    ((EmitFuture.poll env s).2.1.fut = none ∧ (EmitFuture.poll env s).2.1.metadata = none) := by
  unfold EmitFuture.poll at h ⊢
  split at h
  · exact Or.inl (congrArg some (pollWrite_ends env _ h))
  · rename_i hf
    split at h
    · rename_i hm; exact Or.inr ⟨hf, hm⟩
    · simp only at h ⊢
      split at h
      · exact Or.inr ⟨hf, rfl⟩
      · split at h <;> first | exact Or.inr ⟨hf, rfl⟩ | skip
        exact Or.inl (congrArg some (pollWrite_ends env _ h))

theorem polls_emit_completed {P : Type} (s : EmitFuture P) (hs : s.fut = some .completed) (envs : List (Env P)) :
    polls EmitFuture.poll envs s = ⟨envs.map fun _ => .panic, []⟩ := by
  rcases s with ⟨m, st, f⟩
  simp only at hs
  subst hs
  exact polls_completed envs m st

theorem polls_emit_dead {P : Type} (s : EmitFuture P) (hs : s.fut = none) (hm : s.metadata = none) (envs : List (Env P)) :
    polls EmitFuture.poll envs s = ⟨envs.map fun _ => .ready (.err .invalidState), []⟩ := by
  rcases s with ⟨m, st, f⟩
  simp only at hs hm
  subst hs hm
  induction envs with
  | nil => rfl
  | cons env envs ih => simp [polls, EmitFuture.poll, ih]

theorem select_ends {P : Type} (env : Env P) (id : UInt64) (t : Nat) (h : (pollSelect (P := P) env id t).1 ≠ .pending) :
    (pollSelect (P := P) env id t).2.1 = .completed := by
  unfold pollSelect at h ⊢
  split at h <;> try rfl
  · exact absurd rfl h
  · split <;> rfl
  · exact absurd rfl h

theorem emitting_ends {P : Type} (env : Env P) (id : UInt64) (t : Nat) (em : EmitFuture P) (h : (pollEmitting env id t em).1 ≠ .pending) :
    (pollEmitting env id t em).2.1 = .completed := by
  unfold pollEmitting at h ⊢
  split at h <;> try rfl
  · exact absurd rfl h
  · exact absurd rfl h
  · exact select_ends env id t h

theorem block_ends {P : Type} (env : Env P) (id : UInt64) (t : Nat) (f : Fut (ReplyStage P)) (h : (pollReplyBlock env id t f).1 ≠ .pending) :
    (pollReplyBlock env id t f).2.1 = .completed := by
  cases f with
  | completed => rfl
  | running st =>
    cases st with
    | start em => exact emitting_ends env id t em h
    | emitting em => exact emitting_ends env id t em h
    | selecting => exact select_ends env id t h

theorem reply_over {P : Type} (env : Env P) (s : ReplyFuture P) (h : (ReplyFuture.poll env s).1 ≠ .pending) :
    (∃ id t, (ReplyFuture.poll env s).2.1.fut = some (id, t, .completed)) ∨
    ((ReplyFuture.poll env s).2.1.fut = none ∧ (ReplyFuture.poll env s).2.1.emitMetadata = none) := by
  unfold ReplyFuture.poll at h ⊢
  split at h
  · rename_i id t f hf
    exact Or.inl ⟨id, t, by simp only [block_ends env id t f h]⟩
  · rename_i hf
    split at h
    · rename_i hm; exact Or.inr ⟨hf, hm⟩
    · simp only at h ⊢
      split at h
      · split at h <;> first | exact Or.inr ⟨hf, rfl⟩ | skip
        exact Or.inl ⟨_, _, congrArg (fun f => some (_, _, f)) (block_ends env _ _ _ h)⟩
      · exact Or.inr ⟨hf, rfl⟩

theorem polls_reply_dead {P : Type} (s : ReplyFuture P) (hs : s.fut = none) (hm : s.emitMetadata = none) (envs : List (Env P)) :
    polls ReplyFuture.poll envs s = ⟨envs.map fun _ => .ready (.err .invalidState), []⟩ := by
  rcases s with ⟨tmo, m, f⟩
  simp only at hs hm
  subst hs hm
  exact polls_dead_reply tmo envs

theorem polls_reply_over {P : Type} (s : ReplyFuture P) (id : UInt64) (t : Nat) (hs : s.fut = some (id, t, .completed)) (envs : List (Env P)) :
    polls ReplyFuture.poll envs s = ⟨envs.map fun _ => .panic, []⟩ := by
  rcases s with ⟨tmo, m, f⟩
  simp only at hs
  subst hs
  exact polls_reply_completed envs tmo m id t

theorem streamEmitting_ends {P : Type} (env : Env P) (id : UInt64) (t : Nat) (em : EmitFuture P) (h : (pollStreamEmitting env id t em).1 ≠ .pending) :
    (pollStreamEmitting env id t em).2.1 = .completed := by
  unfold pollStreamEmitting at h ⊢
  split at h <;> try rfl
  · exact absurd rfl h
  · exact absurd rfl h

theorem streamBlock_ends {P : Type} (env : Env P) (id : UInt64) (t : Nat) (f : Fut (StreamStage P)) (h : (pollStreamBlock env id t f).1 ≠ .pending) :
    (pollStreamBlock env id t f).2.1 = .completed := by
  cases f with
  | completed => rfl
  | running st =>
    cases st with
    | start em => exact streamEmitting_ends env id t em h
    | emitting em => exact streamEmitting_ends env id t em h

theorem stream_over {P : Type} (env : Env P) (s : StreamFuture P) (h : (StreamFuture.poll env s).1 ≠ .pending) :
    (∃ id t, (StreamFuture.poll env s).2.1.fut = some (id, t, .completed)) ∨
    ((StreamFuture.poll env s).2.1.fut = none ∧ (StreamFuture.poll env s).2.1.emitMetadata = none) := by
  unfold StreamFuture.poll at h ⊢
  split at h
  · rename_i id t f hf
    exact Or.inl ⟨id, t, by simp only [streamBlock_ends env id t f h]⟩
  · rename_i hf
    split at h
    · rename_i hm; exact Or.inr ⟨hf, hm⟩
    · simp only at h ⊢
      split at h
      · split at h <;> first | exact Or.inr ⟨hf, rfl⟩ | skip
        exact Or.inl ⟨_, _, congrArg (fun f => some (_, _, f)) (streamBlock_ends env _ _ _ h)⟩
      · exact Or.inr ⟨hf, rfl⟩

theorem polls_stream_dead {P : Type} (s : StreamFuture P) (hs : s.fut = none) (hm : s.emitMetadata = none) (envs : List (Env P)) :
    polls StreamFuture.poll envs s = ⟨envs.map fun _ => .ready (.err .invalidState), []⟩ := by
  rcases s with ⟨tmo, m, f⟩
  simp only at hs hm
  subst hs hm
  exact polls_dead_stream tmo envs

theorem polls_stream_over {P : Type} (s : StreamFuture P) (id : UInt64) (t : Nat) (hs : s.fut = some (id, t, .completed)) (envs : List (Env P)) :
    polls StreamFuture.poll envs s = ⟨envs.map fun _ => .panic, []⟩ := by
  rcases s with ⟨tmo, m, f⟩
  simp only at hs
  subst hs
  induction envs with
  | nil => rfl
  | cons env envs ih => simp [polls, StreamFuture.poll, pollStreamBlock, ih]

/-- The further polls of a future that is over have no effect; all of them panic, or all of them report `InvalidState`. -/
def Over {α : Type} {P : Type} (later : List (Env P)) (o : Observed (Poll (Outcome α))) : Prop :=
  o = ⟨later.map fun _ => .panic, []⟩ ∨ o = ⟨later.map fun _ => .ready (.err .invalidState), []⟩

/-- C48. An `emit` future in any state (polled before however often, in whatever environments): once a poll has returned something, an error included, or panicked, no further poll
has any effect: nothing is written, and no id or reply is made up. -/
theorem C48_emit_again {P : Type} (s : EmitFuture P) (env : Env P) (later : List (Env P)) (h : (EmitFuture.poll env s).1 ≠ .pending) :
    Over later (polls EmitFuture.poll later (EmitFuture.poll env s).2.1) := by
  rcases emit_over env s h with h1 | ⟨h1, h2⟩
  · exact Or.inl (polls_emit_completed _ h1 later)
  · exact Or.inr (polls_emit_dead _ h1 h2 later)

/-- C48 for `await_reply`. -/
theorem C48_await_reply_again {P : Type} (s : ReplyFuture P) (env : Env P) (later : List (Env P)) (h : (ReplyFuture.poll env s).1 ≠ .pending) :
    Over later (polls ReplyFuture.poll later (ReplyFuture.poll env s).2.1) := by
  rcases reply_over env s h with ⟨id, t, h1⟩ | ⟨h1, h2⟩
  · exact Or.inl (polls_reply_over _ id t h1 later)
  · exact Or.inr (polls_reply_dead _ h1 h2 later)

/-- C48 for `stream_replies`. -/
theorem C48_stream_replies_again {P : Type} (s : StreamFuture P) (env : Env P) (later : List (Env P)) (h : (StreamFuture.poll env s).1 ≠ .pending) :
    Over later (polls StreamFuture.poll later (StreamFuture.poll env s).2.1) := by
  rcases stream_over env s h with ⟨id, t, h1⟩ | ⟨h1, h2⟩
  · exact Or.inl (polls_stream_over _ id t h1 later)
  · exact Or.inr (polls_stream_dead _ h1 h2 later)

/-- An emit that has been written: polled again it panics, and writes nothing. -/
example : polls EmitFuture.poll [exampleEnv .pending, exampleEnv .pending] (EmitFuture.new ((Context.mk none 60000).emit "a" [1, 2]))
    = ⟨[.ready (.ok 7), .panic], [.write (emitEvent (Context.mk none 60000) none "a" [1, 2] 7)]⟩ := rfl

theorem polled_metadata {P : Type} (env : Env P) (s : EmitFuture P) : (EmitFuture.poll env s).2.1.metadata = none ∨ s.fut ≠ none := by
  cases hf : s.fut with
  | some f => exact Or.inr (by simp)
  | none =>
    left
    unfold EmitFuture.poll
    rw [hf]
    simp only
    split
    · assumption
    · split
      · rfl
      · split <;> rfl

theorem stays_polled {P : Type} (envs : List (Env P)) (s : EmitFuture P) (h : s.metadata = none) : (stateAfter EmitFuture.poll envs s).metadata = none := by
  induction envs generalizing s with
  | nil => exact h
  | cons env envs ih =>
    refine ih _ ?_
    unfold EmitFuture.poll
    split
    · exact h
    · simp only [h]

/-- C48. An emit future that has been polled (once or more, with whatever result) cannot be turned into a request any more: `await_reply` and `stream_replies` on it
report `InvalidState` at every poll; no listener is registered, nothing is written. -/
theorem C48_polled_emit_reused {P : Type} (m : EventMetadata P) (env : Env P) (envs later : List (Env P)) (tmo : Option Nat) :
    let em := stateAfter EmitFuture.poll (env :: envs) (EmitFuture.new m)
    polls ReplyFuture.poll later (match tmo with | some t => em.awaitReply.withTimeout t | none => em.awaitReply)
      = ⟨later.map fun _ => .ready (.err .invalidState), []⟩ ∧
    polls StreamFuture.poll later (match tmo with | some t => em.streamReplies.withTimeout t | none => em.streamReplies)
      = ⟨later.map fun _ => .ready (.err .invalidState), []⟩ := by
  intro em
  have hm : em.metadata = none := by
    refine stays_polled envs _ ?_
    rcases polled_metadata env (EmitFuture.new m) with h | h
    · exact h
    · exact absurd rfl h
  generalize em = em at hm
  constructor
  · cases later with
    | nil => cases tmo <;> rfl
    | cons x later => cases tmo <;> simp [polls, ReplyFuture.poll, EmitFuture.awaitReply, ReplyFuture.withTimeout, hm, polls_dead_reply]
  · cases later with
    | nil => cases tmo <;> rfl
    | cons x later => cases tmo <;> simp [polls, StreamFuture.poll, EmitFuture.streamReplies, StreamFuture.withTimeout, hm, polls_dead_stream]

/-! ### Reply streams -/

/-- The states of a reply stream, and whether it has reported a timeout. -/
def StreamAt (id : UInt64) (t : Nat) (s : ResponseStream) (timedOut : Prop) : Prop :=
  (¬ timedOut ∧ (s = { eventId := id, timeout := t, live := true, fut := none } ∨ s = { eventId := id, timeout := t, live := false, fut := some (.running ()) } ∨
    s = { eventId := id, timeout := t, live := false, fut := none })) ∨
  (timedOut ∧ ∃ l, s = { eventId := id, timeout := t, live := l, fut := some .completed })

theorem streamAt_poll {P : Type} {id : UInt64} {t : Nat} {s : ResponseStream} {b : Prop} (env : Env P) (hc : env.channel ≠ .panic) (h : StreamAt id t s b) :
    StreamAt id t (ResponseStream.pollNext env s).2.1 (b ∨ (ResponseStream.pollNext env s).1 = .ready (some (.err .timeout))) ∧
    ((ResponseStream.pollNext env s).1 = .panic ↔ b) := by
  have hsel : selectReply env t = .pending ∨ selectReply env t = .ready (.err .timeout) ∨ ∃ o, selectReply env t = .ready (.ok o) := by
    unfold selectReply
    split <;> simp_all
  rcases h with ⟨hb, h⟩ | ⟨hb, l, rfl⟩
  · rcases h with rfl | rfl | rfl
    · rcases hsel with hs | hs | ⟨o, hs⟩
      · simp [ResponseStream.pollNext, pollNextBlock, hs, StreamAt, hb]
      · simp [ResponseStream.pollNext, pollNextBlock, hs, StreamAt, hb]
      · cases o with
        | none => simp [ResponseStream.pollNext, pollNextBlock, hs, StreamAt, hb]
        | some e => by_cases he : e.eventType = .end <;> simp [ResponseStream.pollNext, pollNextBlock, hs, StreamAt, hb, he]
    · rcases hsel with hs | hs | ⟨o, hs⟩
      · simp [ResponseStream.pollNext, pollNextBlock, hs, StreamAt, hb]
      · simp [ResponseStream.pollNext, pollNextBlock, hs, StreamAt, hb]
      · cases o with
        | none => simp [ResponseStream.pollNext, pollNextBlock, hs, StreamAt, hb]
        | some e => by_cases he : e.eventType = .end <;> simp [ResponseStream.pollNext, pollNextBlock, hs, StreamAt, hb, he]
    · simp [ResponseStream.pollNext, StreamAt, hb]
  · simp [ResponseStream.pollNext, pollNextBlock, StreamAt, hb]

/-- C48, reply streams, exactly when polling panics: after any sequence of polls, in any environments, the next poll panics if and only if an earlier poll has reported
a timeout. (The channel itself does not panic.) -/
theorem C48_stream_panics_iff {P : Type} (envs : List (Env P)) (env : Env P) (id : UInt64) (t : Nat) (hc : ∀ x ∈ envs ++ [env], x.channel ≠ .panic) :
    (ResponseStream.pollNext env (stateAfter ResponseStream.pollNext envs (ResponseStream.new id t))).1 = .panic ↔
      .ready (some (.err .timeout)) ∈ (polls ResponseStream.pollNext envs (ResponseStream.new id t)).results := by
  have key : ∀ (envs : List (Env P)) (s : ResponseStream) (b : Prop), (∀ x ∈ envs, x.channel ≠ .panic) → StreamAt id t s b →
      StreamAt id t (stateAfter ResponseStream.pollNext envs s) (b ∨ .ready (some (.err .timeout)) ∈ (polls ResponseStream.pollNext envs s).results) := by
    intro envs
    induction envs with
    | nil => intro s b _ h; simpa [stateAfter, polls] using h
    | cons x envs ih =>
      intro s b hc h
      have := ih _ _ (fun y hy => hc y (by simp [hy])) (streamAt_poll x (hc x (by simp)) h).1
      simp only [stateAfter, polls, List.mem_cons]
      rw [or_assoc, eq_comm (a := (ResponseStream.pollNext x s).1)] at this
      exact this
  have h := key envs (ResponseStream.new id t) False (fun x hx => hc x (by simp [hx])) (Or.inl ⟨not_false, Or.inl rfl⟩)
  rw [(streamAt_poll env (hc env (by simp)) h).2]
  simp

end Bromine.Props
