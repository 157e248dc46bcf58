import Verif.Lemmas.Timed
import Verif.Props.Refine
/-
C79: how timeouts are measured.
-/
namespace Bromine.Props
open Refine Spec

section
variable {P : Type} {a : Params P}

/-- **C79, `await_reply` does not time out early.** If a poll of an `await_reply` says `Timeout`, then the event has been written completely, in this or an earlier poll, and since that poll at
least the timeout has passed: that given to `with_timeout`, else the default one of the context. In particular, however long it takes to write the event, this does not count, and the request
does not time out meanwhile. -/
theorem C79_not_early (hk : a.kind = .single) (t : Option Nat) (xs : List (Tick P)) (hb : ∀ x ∈ xs, Behaves a x.io) {pre post : List (Obs P)} {o : Obs P}
    (h : (a.timed t).history xs = pre ++ o :: post) (ho : TimedOut o.got) :
    ∃ y ∈ pre ++ [o], Wrote y ∧ y.tick.now + t.getD a.timeout ≤ o.tick.now := by
  obtain ⟨ys, zs, rfl, h1, h2, h3⟩ := Timed.history_cut h
  have inv := invS hk t ys fun x hx => hb x (by simp [hx])
  rw [h1] at inv
  generalize (a.timed t).after ys = s at inv h2 h3
  obtain ⟨⟨E, hE⟩, hT, ⟨f, hf⟩, hA, hS, hAll, hEr, hOv⟩ := inv
  have hbx : Behaves a (s.env o.tick) := behaves_env (hb _ (by simp))
  rw [hf] at hE hT
  have hp := single_poll hbx hE hT
  rw [← hf] at hp
  rw [h2] at ho
  obtain ⟨k1, k2⟩ := hp.fired ho
  simp only [Timed.env, Bool.and_eq_true, decide_eq_true_eq] at k2
  by_cases hsl : s.fut.sleeping = true
  · obtain ⟨y, hy, hw, hsi⟩ := hS hsl
    refine ⟨y, by simp [hy], hw, ?_⟩
    simpa [hsi] using k2.2
  · refine ⟨o, by simp, ?_, ?_⟩
    · obtain ⟨e, he⟩ := k1.resolve_left hsl
      exact ⟨e, by rw [h3]; exact he.1, he.2⟩
    · simpa [hA (by simpa using hsl)] using k2.2

/-- **C79, `await_reply` does not time out late.** If a poll of an `await_reply` is pending, although timers that are due are noticed, then the event is not yet written completely, or the timeout
has not yet passed since the poll in which it was. -/
theorem C79_not_late (hk : a.kind = .single) (t : Option Nat) (xs : List (Tick P)) (hb : ∀ x ∈ xs, Behaves a x.io) {pre post : List (Obs P)} {o : Obs P}
    (h : (a.timed t).history xs = pre ++ o :: post) (ho : o.got = .pending) (hn : o.tick.io.timer (t.getD a.timeout) = true) :
    ∀ y ∈ pre ++ [o], Wrote y → o.tick.now < y.tick.now + t.getD a.timeout := by
  obtain ⟨ys, zs, rfl, h1, h2, h3⟩ := Timed.history_cut h
  have inv := invS hk t ys fun x hx => hb x (by simp [hx])
  rw [h1] at inv
  generalize (a.timed t).after ys = s at inv h2 h3
  obtain ⟨⟨E, hE⟩, hT, ⟨f, hf⟩, hA, hS, hAll, hEr, hOv⟩ := inv
  have hbx : Behaves a (s.env o.tick) := behaves_env (hb _ (by simp))
  rw [hf] at hE hT
  have hp := single_poll hbx hE hT
  rw [← hf] at hp
  rw [h2] at ho
  intro y hy hw
  have hor : s.fut.sleeping = true ∨ wrote (s.env o.tick) (s.fut.poll (s.env o.tick)).2.2 := by
    rcases List.mem_append.1 hy with hy | hy
    · by_cases hsl : s.fut.sleeping = true
      · exact Or.inl hsl
      · exfalso
        have hnew : ¬ (phOf s.fut = .new ∨ phOf s.fut = .registered) := fun hh => hEr hh y hy hw
        have hfin : phOf s.fut ≠ .finished := by
          intro hfin
          rw [hf] at hfin
          simp only [phOf] at hfin
          split at hfin <;> try cases hfin
          rename_i hff
          simp [Timed.poll, hf, ReqFut.poll, ReplyFuture.poll, hff, pollReplyBlock] at ho
        rw [hf] at hsl hnew hfin
        simp only [phOf] at hnew hfin
        simp only [ReqFut.sleeping] at hsl
        cases hff : f.fut with
        | none => simp [hff] at hnew
        | some v =>
          obtain ⟨id, t', (em | em | _) | _⟩ := v <;> simp [hff] at hnew hfin hsl
    · obtain rfl := List.mem_singleton.1 hy
      obtain ⟨e, he⟩ := hw
      exact Or.inr ⟨e, by rw [h3] at he; exact he.1, he.2⟩
  have hti := (hp.waits ho hor).2
  simp only [Timed.env, hn, Bool.true_and, decide_eq_false_iff_not] at hti
  by_cases hsl : s.fut.sleeping = true
  · rcases List.mem_append.1 hy with hy | hy
    · rw [hAll hsl y hy hw] at hti
      simpa using hti
    · obtain rfl := List.mem_singleton.1 hy
      exfalso
      obtain ⟨e, he⟩ := hw
      have := hp.once ⟨e, by rw [h3] at he; exact he.1, he.2⟩
      rw [hf] at this hsl
      simp only [phOf] at this
      simp only [ReqFut.sleeping] at hsl
      split at hsl <;> simp_all
  · rcases List.mem_append.1 hy with hy | hy
    · exfalso
      exact hEr (hp.once (hor.resolve_left hsl)) y hy hw
    · obtain rfl := List.mem_singleton.1 hy
      rw [hA (by simpa using hsl)] at hti
      simpa using hti

/-- **C79, a request without an answer times out.** If the event has been written, all polls so far were pending, and now, the timeout having passed since the poll that wrote it, timers that are
due are noticed and there is nothing in the channel, then this poll says `Timeout`. -/
theorem C79_times_out (hk : a.kind = .single) (t : Option Nat) (xs : List (Tick P)) (hb : ∀ x ∈ xs, Behaves a x.io) {pre post : List (Obs P)} {o : Obs P}
    (h : (a.timed t).history xs = pre ++ o :: post) (hpre : ∀ z ∈ pre, z.got = .pending) {y : Obs P} (hy : y ∈ pre) (hw : Wrote y)
    (hd : y.tick.now + t.getD a.timeout ≤ o.tick.now) (hn : o.tick.io.timer (t.getD a.timeout) = true) (hc : o.tick.io.channel = .pending) :
    o.got = .reply (.err .timeout) := by
  obtain ⟨ys, zs, rfl, h1, h2, h3⟩ := Timed.history_cut h
  have inv := invS hk t ys fun x hx => hb x (by simp [hx])
  rw [h1] at inv
  generalize (a.timed t).after ys = s at inv h2 h3
  obtain ⟨⟨E, hE⟩, hT, ⟨f, hf⟩, hA, hS, hAll, hEr, hOv⟩ := inv
  have hnew : ¬ (phOf s.fut = .new ∨ phOf s.fut = .registered) := fun hh => hEr hh y hy hw
  have hfin : phOf s.fut ≠ .finished := by
    intro hh
    obtain ⟨z, hz, hg⟩ := hOv hh
    exact hg (hpre z hz)
  rw [hf] at hnew hfin hT
  simp only [phOf] at hnew hfin
  simp only [TimeOk] at hT
  cases hff : f.fut with
  | none => simp [hff] at hnew
  | some v =>
    obtain ⟨id, t', (em | em | _) | _⟩ := v <;> simp [hff] at hnew hfin
    simp only [hff] at hT
    have hsl : s.fut.sleeping = true := by simp [hf, ReqFut.sleeping, hff]
    have hsi := hAll hsl y hy hw
    rw [h2]
    simp [Timed.poll, hf, ReqFut.poll, ReplyFuture.poll, hff, pollReplyBlock, pollSelect, selectReply, Timed.env, hsi, hT, hn, hc, hd]
    cases o.tick.io.timerFirst <;> simp

/-- **C79, a stream does not time out early.** If a poll of a reply stream says `Timeout`, at least the timeout has passed since the first poll for this item: the first one after the stream was
opened, or had given its previous item. So each item has all of its time, however long the stream has been open; and time in which nobody asks for an item does not count. While the stream is
being opened there is no timeout. -/
theorem C79_stream_not_early (hk : a.kind = .stream) (t : Option Nat) (xs : List (Tick P)) (hb : ∀ x ∈ xs, Behaves a x.io) {pre post : List (Obs P)} {o : Obs P}
    (h : (a.timed t).history xs = pre ++ o :: post) (ho : TimedOut o.got) :
    ∃ w y rest, SinceLastItem (pre ++ [o]) (w ++ [o]) ∧ (∀ z ∈ w, z.got = .pending) ∧ w ++ [o] = y :: rest ∧ y.tick.now + t.getD a.timeout ≤ o.tick.now := by
  obtain ⟨ys, zs, rfl, h1, h2, h3⟩ := Timed.history_cut h
  have inv := invI hk t ys fun x hx => hb x (by simp [hx])
  rw [h1] at inv
  generalize (a.timed t).after ys = s at inv h2 h3
  obtain ⟨⟨E, hE⟩, hT, hN, hA, hS, hL, hO⟩ := inv
  have hbx : Behaves a (s.env o.tick) := behaves_env (hb _ (by simp))
  have hp : Items (t.getD a.timeout) (s.env o.tick) s.fut (s.fut.poll (s.env o.tick)).1 (s.fut.poll (s.env o.tick)).2.1 := by
    cases hf : s.fut with
    | reply f => exact absurd hf (hN f)
    | stream f => rw [hf] at hE; exact stream_poll hbx hE
    | items z => rw [hf] at hE hT; exact items_poll hbx hE hT
  rw [h2] at ho
  obtain ⟨k1, k2⟩ := hp.fired ho
  simp only [Timed.env, Bool.and_eq_true, decide_eq_true_eq] at k2
  by_cases hsl : s.fut.sleeping = true
  · obtain ⟨y, w, hw, hpe, hsi⟩ := hS hsl
    exact ⟨y :: w, y, w ++ [o], sinceLastItem_snoc hw, hpe, rfl, by simpa [hsi] using k2.2⟩
  · obtain ⟨z, hz, hl⟩ := k1.resolve_left hsl
    refine ⟨[], o, [], sinceLastItem_snoc (hL z hz hl), by simp, rfl, ?_⟩
    simpa [hA (by simpa using hsl)] using k2.2

/-- **C79, a stream does not time out late.** If a poll of a reply stream is pending, although timers that are due are noticed, then the timeout has not yet passed since the first poll for this
item. -/
theorem C79_stream_not_late (hk : a.kind = .stream) (t : Option Nat) (xs : List (Tick P)) (hb : ∀ x ∈ xs, Behaves a x.io) {pre post : List (Obs P)} {o : Obs P}
    (h : (a.timed t).history xs = pre ++ o :: post) (hop : ∃ p ∈ pre, Opens p) (ho : o.got = .pending) (hn : o.tick.io.timer (t.getD a.timeout) = true) :
    ∃ w y rest, SinceLastItem (pre ++ [o]) (w ++ [o]) ∧ (∀ z ∈ w, z.got = .pending) ∧ w ++ [o] = y :: rest ∧ o.tick.now < y.tick.now + t.getD a.timeout := by
  obtain ⟨ys, zs, rfl, h1, h2, h3⟩ := Timed.history_cut h
  have inv := invI hk t ys fun x hx => hb x (by simp [hx])
  rw [h1] at inv
  generalize (a.timed t).after ys = s at inv h2 h3
  obtain ⟨⟨E, hE⟩, hT, hN, hA, hS, hL, hO⟩ := inv
  have hbx : Behaves a (s.env o.tick) := behaves_env (hb _ (by simp))
  obtain ⟨z, hz⟩ := hO hop
  rw [hz] at hE hT
  have hp := items_poll hbx hE hT
  rw [← hz] at hp
  rw [h2] at ho
  obtain ⟨k1, k2⟩ := hp.waits ho ⟨z, hz⟩
  simp only [Timed.env, hn, Bool.true_and, decide_eq_false_iff_not] at k2
  by_cases hsl : s.fut.sleeping = true
  · obtain ⟨y, w, hw, hpe, hsi⟩ := hS hsl
    exact ⟨y :: w, y, w ++ [o], sinceLastItem_snoc hw, hpe, rfl, by simpa [hsi] using k2⟩
  · obtain ⟨-, hor⟩ := hp.sleeps k1
    obtain ⟨z, hz, hl⟩ := hor.resolve_left hsl
    refine ⟨[], o, [], sinceLastItem_snoc (hL z hz hl), by simp, rfl, ?_⟩
    simpa [hA (by simpa using hsl)] using k2

theorem sinceLastItem_unique {h w w' : List (Obs P)} (h1 : SinceLastItem h w) (h2 : SinceLastItem h w') (hw : ∀ z ∈ w, z.got = .pending) (hw' : ∀ z ∈ w', z.got = .pending) : w = w' := by
  obtain ⟨pre, p, rfl, hp⟩ := h1
  obtain ⟨pre', p', he, hp'⟩ := h2
  have no : ∀ {q : Obs P}, Opens q → q.got ≠ .pending := by
    rintro q (h | ⟨e, h⟩) hh <;> rw [h] at hh <;> cases hh
  rw [List.append_eq_append_iff] at he
  rcases he with ⟨as, h1, h2⟩ | ⟨as, h1, h2⟩
  · cases as with
    | nil => simp at h2; exact h2.2
    | cons a as => simp at h2; exact absurd (hw p' (by rw [h2.2]; simp)) (no hp')
  · cases as with
    | nil => simp at h2; exact h2.2.symm
    | cons a as => simp at h2; exact absurd (hw' p (by rw [h2.2]; simp)) (no hp)

/-- **C79, a stream whose next item does not come times out.** If, since the stream was opened or gave its last item, there were polls, all pending, and now, the timeout having passed since the first of them, timers that are due are
noticed and there is nothing in the channel, then this poll says `Timeout`. -/
theorem C79_stream_times_out (hk : a.kind = .stream) (t : Option Nat) (xs : List (Tick P)) (hb : ∀ x ∈ xs, Behaves a x.io) {pre post w : List (Obs P)} {o y : Obs P}
    (h : (a.timed t).history xs = pre ++ o :: post) (hsl : SinceLastItem pre (y :: w)) (hpe : ∀ z ∈ y :: w, z.got = .pending)
    (hd : y.tick.now + t.getD a.timeout ≤ o.tick.now) (hn : o.tick.io.timer (t.getD a.timeout) = true) (hc : o.tick.io.channel = .pending) :
    o.got = .item (some (.err .timeout)) := by
  obtain ⟨ys, zs, rfl, h1, h2, -⟩ := Timed.history_cut h
  have hbys : ∀ x ∈ ys, Behaves a x.io := fun x hx => hb x (by simp [hx])
  have inv := invI hk t ys hbys
  have hsleep : ((a.timed t).after ys).fut.sleeping = true := by
    obtain ⟨pre0, p, rfl, hp⟩ := hsl
    obtain ⟨w0, z, hz⟩ : ∃ w0 z, y :: w = w0 ++ [z] := ⟨_, _, (List.dropLast_concat_getLast (by simp)).symm⟩
    rw [hz] at h1
    obtain ⟨us, vs, rfl, g1, g2, -⟩ := Timed.history_cut (show _ = (pre0 ++ p :: w0) ++ z :: [] by rw [h1]; simp)
    have hl := congrArg List.length h1
    have hlen : ∀ (s : Timed P) (xs : List (Tick P)), (s.history xs).length = xs.length := by
      intro s xs
      induction xs generalizing s with
      | nil => rfl
      | cons x xs ih => simp [Timed.history, ih]
    have hl' := congrArg List.length g1
    rw [hlen] at hl hl'
    have : vs = [] := by
      apply List.eq_nil_of_length_eq_zero
      simp only [List.length_append, List.length_cons, List.length_nil] at hl hl'
      omega
    subst this
    have inv' := invI hk t us fun x hx => hbys x (by simp [hx])
    rw [g1] at inv'
    obtain ⟨x, hx⟩ := inv'.opened ⟨p, by simp, hp⟩
    rw [Timed.after_snoc]
    generalize (a.timed t).after us = s at inv' hx g2
    have hbx : Behaves a (s.env z.tick) := behaves_env (hbys _ (by simp))
    obtain ⟨E, hE⟩ := inv'.fut
    have hT := inv'.time
    rw [hx] at hE hT
    have hp' := items_poll hbx hE hT
    rw [← hx] at hp'
    have hzp : z.got = .pending := hpe z (by rw [hz]; simp)
    rw [g2] at hzp
    exact (hp'.waits hzp ⟨x, hx⟩).1
  rw [h1] at inv
  generalize (a.timed t).after ys = s at inv h2 hsleep
  obtain ⟨y', w', k1, k2, k3⟩ := inv.slept hsleep
  have := sinceLastItem_unique k1 hsl k2 hpe
  cases this
  have hT := inv.time
  rw [h2]
  cases hf : s.fut with
  | reply f => exact absurd hf (inv.stream f)
  | stream f => rw [hf] at hsleep; simp [ReqFut.sleeping] at hsleep
  | items x =>
    rw [hf] at hsleep hT
    have hT : x.timeout = t.getD a.timeout := hT
    cases hff : x.fut with
    | none => simp [ReqFut.sleeping, hff] at hsleep
    | some f =>
      cases f with
      | completed => simp [ReqFut.sleeping, hff] at hsleep
      | running u =>
        simp [Timed.poll, hf, ReqFut.poll, ResponseStream.pollNext, hff, pollNextBlock, selectReply, Timed.env, k3, hT, hn, hc, hd]
        cases o.tick.io.timerFirst <;> simp

end

/-! ### Executions -/

/-- A poll at time `now`: the event is written if `w`, the channel has `e`. -/
def timedTick (now : Nat) (w : Bool) (e : Option Event) : Tick Bytes where
  now := now
  io := { refineEnv e with writing := fun _ => if w then .ready (.ok ()) else .pending, timer := fun _ => true }

theorem timedTick_behaves (kind : Endpoint.ReqKind) (now : Nat) (w : Bool) (e : Option Event) : Behaves (refineDemo kind) (timedTick now w e).io := by
  refine ⟨⟨fun _ => ?_, ?_⟩, fun _ => ?_, ?_⟩
  · cases w <;> simp [timedTick]
  · cases e <;> simp [timedTick, refineEnv]
  · cases w <;> simp [timedTick]
  · simp [timedTick, refineEnv]

/-- What the owner was told. -/
def toldOf (o : Obs Bytes) : Nat :=
  match o.got with
  | .pending => 0
  | .reply (.err .timeout) => 1
  | .item (some (.err .timeout)) => 1
  | .item (some (.ok _)) => 2
  | .opened (.ok _) => 3
  | _ => 4

/-- C79 for `await_reply` with a timeout of 10: made at time 0, written at time 100 (without a timeout before), pending at time 109, timed out at time 110. -/
example : (((refineDemo .single).timed (some 10)).history [timedTick 0 false none, timedTick 50 false none, timedTick 100 true none, timedTick 109 true none, timedTick 110 true none]).map toldOf
    = [0, 0, 0, 0, 1] := by decide

/-- C79 for a stream with the default timeout of 60: opened at time 0; the first item is asked for at time 1000 and comes at 1059, the next is asked for at 1070 and times out at 1130. -/
example : (((refineDemo .stream).timed none).history [timedTick 0 true none, timedTick 1000 true none, timedTick 1059 true (some (peerEvent 21 none "a" .response (some 7))),
      timedTick 1070 true none, timedTick 1129 true none, timedTick 1130 true none]).map toldOf = [3, 0, 2, 0, 0, 1] := by decide

end Bromine.Props
