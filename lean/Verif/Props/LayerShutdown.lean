import Verif.Lemmas.LayerShutdown
import Verif.Lemmas.LayersOne
import Verif.Props.Layers
/-
C92: shutting down encrypted connections of any depth.
-/
namespace Bromine.Props
open Bromine Bromine.Spec Bromine.CryptIO Bromine.Layers

section
variable {A : Aead} {l : Layer} {ls : List Layer} {checks : Bool} {s : LState (ls.length + 1)} {em rd : List Event}

theorem drained_of (h : Link.Hist (layered A (l :: ls) checks) s em rd) (hg : ∀ e ∈ em, Carry ls e) (hc : s.cur = none) : Drained (ls.length + 1) s.w :=
  idle_drained A (l :: ls) em.length s.w ((layered_inv A l ls checks h hg).free hc).1

/-- **C92, polls.** A connection with any number of encrypted layers, over which events have been emitted, is polled for its shutdown, any number of times, whatever the socket answers: the results are as specified; in particular each layer
needs a poll of its own, after which nobody has been asked for a wake-up, and the socket is only asked to shut down after all of them. Nothing goes to the wire: all that was emitted is there already. -/
theorem C92_polls (h : Link.Hist (layered A (l :: ls) checks) s em rd) (hg : ∀ e ∈ em, Carry ls e) (hc : s.cur = none) (ps : List (List IoAns)) :
    (shutdownPolls A (ls.length + 1) s.w ps).1 = shutdownResults (ls.length + 1) (some (ls.length + 1)) ps ∧
    ((layersW A (ls.length + 1)).base (shutdownPolls A (ls.length + 1) s.w ps).2).wire = s.wire A ∧ NestedEvents A (l :: ls) 0 em (s.wire A) := by
  obtain ⟨h1, h2, -⟩ := closing_polls A ls.length ps s.w (some (ls.length + 1)) (fun k e => by cases e; exact closing_of_drained (drained_of h hg hc)) (fun e => by cases e)
  refine ⟨h1, h2, ?_⟩
  have hw := ((layered_inv A l ls checks h hg).free hc).2
  change s.wire A = _ at hw
  rw [hw]
  exact nestedEvents_wraps A l ls em 0 hg

theorem results_willing (n : Nat) : ∀ (k : Nat) (ps : List (List IoAns)), (∀ as ∈ ps, ∃ m rest, as = .ready m :: rest) → ps.length = k + 1 →
    shutdownResults n (some k) ps = List.replicate k (.pending false, false) ++ [(.ready (.ok ()), true)] := by
  intro k
  induction k with
  | zero =>
    intro ps h hl
    match ps, hl with
    | [as], _ =>
      obtain ⟨m, rest, rfl⟩ := h as (by simp)
      rfl
  | succ k ih =>
    intro ps h hl
    match ps, hl with
    | as :: ps, hl =>
      obtain ⟨m, rest, rfl⟩ := h as (by simp)
      have := ih ps (fun as ha => h as (by simp [ha])) (by simpa using hl)
      simp only [shutdownResults, List.head?_cons, this]
      rfl

/-- **C92, completion.** If the socket is always willing, the shutdown completes in the poll after as many as there are layers, provided that whoever polls does so without being woken; the socket is asked in the last poll only. -/
theorem C92_completes (h : Link.Hist (layered A (l :: ls) checks) s em rd) (hg : ∀ e ∈ em, Carry ls e) (hc : s.cur = none) (ps : List (List IoAns))
    (hp : ∀ as ∈ ps, ∃ m rest, as = .ready m :: rest) (hl : ps.length = ls.length + 2) :
    (shutdownPolls A (ls.length + 1) s.w ps).1 = List.replicate (ls.length + 1) (.pending false, false) ++ [(.ready (.ok ()), true)] := by
  rw [(C92_polls h hg hc ps).1]
  exact results_willing _ _ ps hp hl

/-- C92, for comparison: without layers `shutdown().await` asks the socket in its first poll, writes nothing and returns the first answer of the socket. -/
theorem C92_plain_await (A : Aead) (w : WState 0) (ps : List (List IoAns)) :
    (shutdownAwait A 0 w ps).2.1 = !ps.isEmpty ∧ ((layersW A 0).base (shutdownAwait A 0 w ps).2.2).wire = ((layersW A 0).base w).wire ∧
    (shutdownAwait A 0 w ps).1 = match (ps.filterMap List.head?).find? (· ≠ .pending) with
      | some (.fail e) => .done (.error e)
      | some _ => .done (.ok ())
      | none => .waiting := by
  induction ps generalizing w with
  | nil => exact ⟨rfl, rfl, rfl⟩
  | cons as ps ih =>
    rcases as with _ | ⟨_ | _ | _, as⟩
    · obtain ⟨i1, i2, i3⟩ := ih (answering A 0 w [])
      exact ⟨rfl, i2.trans rfl, i3⟩
    · exact ⟨rfl, rfl, rfl⟩
    · obtain ⟨i1, i2, i3⟩ := ih (answering A 0 w as)
      exact ⟨rfl, i2.trans rfl, i3⟩
    · exact ⟨rfl, rfl, rfl⟩

/-- **C92 does not hold** as one expects it: `shutdown().await`, which is polled only when it has been woken, never shuts the socket down and never returns `Ok`. As soon as the socket is done with the flush, the task waits for a wake-up that
nobody has been asked for; before that it waits for the socket, or gets its error. -/
theorem C92_violated_await (h : Link.Hist (layered A (l :: ls) checks) s em rd) (hg : ∀ e ∈ em, Carry ls e) (hc : s.cur = none) (ps : List (List IoAns)) :
    (shutdownAwait A (ls.length + 1) s.w ps).2.1 = false ∧
    ((layersW A (ls.length + 1)).base (shutdownAwait A (ls.length + 1) s.w ps).2.2).wire = s.wire A ∧
    (shutdownAwait A (ls.length + 1) s.w ps).1 = match (ps.filterMap List.head?).find? (· ≠ .pending) with
      | some (.fail e) => .done (.error e)
      | some _ => .forgotten
      | none => .waiting := by
  have hd := drained_of h hg hc
  show _ ∧ _ = ((layersW A (ls.length + 1)).base s.w).wire ∧ _
  generalize s.w = w at hd
  induction ps generalizing w with
  | nil => exact ⟨rfl, rfl, rfl⟩
  | cons as ps ih =>
    have hcl : Closing (ls.length + 1) (ls.length + 1) (answering A (ls.length + 1) w as) := closing_set A _ (closing_of_drained hd)
    obtain ⟨f1, f2, f3⟩ := closing_poll A _ _ _ hcl
    rw [base_answering] at f1 f2 f3
    dsimp only at f1 f2 f3
    simp only [shutdownAwait]
    generalize pollShutdown A (ls.length + 1) (answering A (ls.length + 1) w as) = x at f1 f2 f3
    obtain ⟨p, b, w'⟩ := x
    dsimp only at f1 f2 f3
    have hdr : Closing (ls.length + 1) (ls.length + 1) w' → Drained (ls.length + 1) w' := by
      obtain ⟨ws', t'⟩ := w'
      rintro (⟨-, h⟩ | ⟨h, -⟩)
      · exact h
      · omega
    match as with
    | [] =>
      cases f1
      obtain ⟨i1, i2, i3⟩ := ih w' (hdr f2)
      exact ⟨by simp [i1], i2.trans f3, by simp only [i3]; rfl⟩
    | .pending :: as =>
      cases f1
      obtain ⟨i1, i2, i3⟩ := ih w' (hdr f2)
      refine ⟨by simp [i1], i2.trans f3, ?_⟩
      simp only [i3, List.filterMap_cons, List.head?_cons, List.find?_cons, ne_eq, not_true_eq_false, decide_false]
    | .fail e :: as =>
      cases f1
      exact ⟨rfl, f3, by simp⟩
    | .ready m :: as =>
      cases f1
      exact ⟨rfl, f3, by simp⟩

/-- **C92, afterwards.** Once the first flush of the shutdown is done, nothing is sent any more, whatever is written, flushed or shut down; every flush panics, and so does every emit; bytes that are written are accepted as long as fewer than 1024
are in the buffer, and the write panics otherwise. -/
theorem C92_violated_after (h : Link.Hist (layered A (l :: ls) checks) s em rd) (hg : ∀ e ∈ em, Carry ls e) (hc : s.cur = none) (ps : List (List IoAns))
    (hp : ∃ p ∈ (shutdownPolls A (ls.length + 1) s.w ps).1, p.1 = .pending false) (os : List WOp) :
    let w := os.foldl (applyW A (ls.length + 1)) (shutdownPolls A (ls.length + 1) s.w ps).2
    ((layersW A (ls.length + 1)).base w).wire = s.wire A ∧
    (∀ as, ((layersW A (ls.length + 1)).pollFlush (answering A _ w as)).1 = .panic) ∧
    (∀ e as, Carry ls e → (pollEmit (layersW A (ls.length + 1)) (answering A _ w as) (.writing (Wire.frame e))).1 = .panic) ∧
    (∀ buf as, ((layersW A (ls.length + 1)).pollWrite (answering A _ w as) buf).1 = if w.1.buffer.length + buf.length < 1024 then .ready (.ok buf.length) else .panic) := by
  obtain ⟨-, h2, h3⟩ := closing_polls A ls.length ps s.w (some (ls.length + 1)) (fun k e => by cases e; exact closing_of_drained (drained_of h hg hc)) (fun e => by cases e)
  obtain ⟨h4, h5⟩ := late_ops A ls.length os _ (h3 (.inr hp))
  intro w
  change Late ls.length w at h4
  change ((layersW A (ls.length + 1)).base w).wire = _ at h5
  clear_value w
  have hl : ∀ as, Late ls.length (answering A _ w as) := fun as => h4.imp (fun h => over_set A _ h) (fun ⟨k, hk, hc⟩ => ⟨k, hk, closing_set A _ hc⟩)
  refine ⟨h5.trans h2, fun as => ?_, fun e as he => late_emit A ls.length _ (hl as) _ (fun h => ?_), fun buf as => ?_⟩
  · exact congrArg Prod.fst (taken_flush A ls.length _ _ (late_taken (hl as)))
  · have := (sends A (l :: ls)).pos (sends_ok A (l :: ls) (he.ok l))
    rw [h] at this
    exact absurd this (by simp)
  · have := congrArg Prod.fst (taken_write A ls.length _ (answering A (ls.length + 1) w as).2 buf (late_taken (hl as)))
    refine Eq.trans this ?_
    rw [show (answering A (ls.length + 1) w as).1 = w.1 from rfl]
    split <;> rfl

end

/-- **C92, one layer.** With one layer this is `poll_shutdown` of C53. -/
theorem C92_one_layer (A : Aead) (ws : WriteStream) (as : List IoAns) (wire : Bytes) :
    ((pollShutdown A 1 (ws, { answers := as, wire := wire })).1, (pollShutdown A 1 (ws, { answers := as, wire := wire })).2.2) =
      ((ws.pollShutdown A as).poll, (ws.pollShutdown A as).ws, { answers := (ws.pollShutdown A as).rest, wire := wire ++ (ws.pollShutdown A as).wire }) := by
  unfold WriteStream.pollShutdown
  by_cases hs : ws.futShutdown = true
  · simp only [if_pos hs]
    rw [pollShutdown_fut A 0 ws ({ answers := as, wire := wire } : Socket) hs]
    match as with
    | [] => simp [pollShutdown, socketShutdown]; rfl
    | .pending :: as => simp [pollShutdown, socketShutdown]; rfl
    | .fail e :: as => simp [pollShutdown, socketShutdown]; rfl
    | .ready m :: as => simp [pollShutdown, socketShutdown]; rfl
  · simp only [if_neg hs]
    have hf := pollFlush_one A ws as wire
    have hf' : pollFlush (layersW A 0) A (ws, ({ answers := as, wire := wire } : Socket)) = _ := hf
    rw [pollShutdown_flush A 0 ws ({ answers := as, wire := wire } : Socket) (by simpa using hs), hf']
    generalize ws.pollFlush A as = r
    obtain ⟨p, ws', wr, rest⟩ := r
    match p with
    | .ready (.ok _) =>
      dsimp only
      by_cases hi : ws'.inner = true
      · simp [hi]; rfl
      · simp [hi]; rfl
    | .ready (.error e) => rfl
    | .pending w => rfl
    | .panic => rfl

/-! ### Examples -/

/-- Three layers, an event has been sent; the shutdown is polled: the first layer's flush waits once, then each layer takes a poll, then the socket is shut down. -/
example : ∃ s, Link.Hist (demoLayers.link true) s [ev1] [] ∧ (∀ e ∈ [ev1], demoLayers.carries e) ∧ s.cur = none ∧
    (s.wire toyAead).length = 90 := by
  have : ((linkRun (demoLayers.link true).init [.emit ev1, .step (.poll [.ready 30, .pending]), .step (.poll [.ready 1000, .ready 1])]).map fun (s, em, rd) =>
      decide (em = [ev1] ∧ rd = [] ∧ s.cur = none ∧ (s.wire toyAead).length = 90)) = some true := by decide +kernel
  obtain ⟨⟨s, em, rd⟩, h1, h2⟩ := Option.map_eq_some_iff.1 this
  simp only [decide_eq_true_eq] at h2
  obtain ⟨rfl, rfl, h3, h4⟩ := h2
  have := linkRun_hist _ .init h1
  refine ⟨s, by simpa using this, ?_, h3, h4⟩
  intro e he
  simp only [List.mem_cons, List.not_mem_nil, or_false] at he
  subst he
  exact ⟨by decide, by decide⟩

example : shutdownResults 3 (some 3) [[.pending], [.ready 1], [], [.ready 1], [.ready 1], [.ready 1], [.ready 1]] =
    [(.pending true, false), (.pending false, false), (.pending true, false), (.pending false, false), (.pending false, false), (.ready (.ok ()), true), (.panic, false)] := rfl

/-- An error of the first flush: it can be tried again; later errors end it. -/
example : shutdownResults 2 (some 2) [[.fail .other], [.ready 1], [.fail .other], [.ready 1]] =
    [(.ready (.error .other), false), (.pending false, false), (.ready (.error .other), false), (.panic, false)] := rfl

/-- There is a poll after which nobody has been asked for a wake-up. -/
example : ∃ p ∈ shutdownResults 3 (some 3) [[.pending], [.ready 1]], p.1 = .pending false := ⟨_, List.mem_cons_of_mem _ (List.mem_cons_self ..), rfl⟩

end Bromine.Props
