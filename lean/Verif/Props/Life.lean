import Verif.Lemmas.Life
/-
C64: who keeps a connection open, and what ends it. C65: connections that a failed build of a pool leaves.
-/
namespace Bromine.Props
open Bromine Bromine.Life

/-- **C64.** Whatever is cloned, emitted, awaited, handled, stopped and dropped, in whatever order: the write half of a connection exists exactly as long as the receive loop runs or something is left
that could still emit on it. When it ceases to exist the peer sees the end of the stream. -/
theorem C64_write_half_iff (s0 : State) (h0 : s0 = client ∨ s0 = server) (ops : List Life.Op) (s : State) (hr : run s0 ops = some s) :
    s.writeHalf = true ↔ s.loop = true ∨ s.held ≠ [] := by
  have hi : Inv s := h0.elim (fun h => inv_run inv_client ops s (h ▸ hr)) (fun h => inv_run inv_server ops s (h ▸ hr))
  rw [hi.half, hi.streams]
  constructor
  · intro h
    cases hl : s.loop with
    | true => exact Or.inl rfl
    | false =>
      refine Or.inr ?_
      intro hh
      rw [hl, hh] at h
      simp [one, sum] at h
  · rintro (h | h)
    · rw [h]; simp only [one, if_true]; omega
    · have := sum_streams_pos h; omega

/-- **C64.** The socket is closed (both halves are gone) exactly if the receive loop has ended and nothing is left that could emit. -/
theorem C64_closed_iff (s0 : State) (h0 : s0 = client ∨ s0 = server) (ops : List Life.Op) (s : State) (hr : run s0 ops = some s) :
    (s.loop = false ∧ s.writeHalf = false) ↔ (s.loop = false ∧ s.held = []) := by
  have h := C64_write_half_iff s0 h0 ops s hr
  cases hl : s.loop <;> cases hw : s.writeHalf <;> simp [hl, hw] at h ⊢ <;> exact h

/-- **C64.** The receive loop of a client ends only because reading ended, or because the abort that a `stop` asked for was carried out. -/
theorem C64_client_loop_ends (ops : List Life.Op) (s : State) (hr : run client ops = some s) (hl : s.loop = false) :
    Life.Op.readEnd ∈ ops ∨ ∃ pre post h, ops = pre ++ Life.Op.abort :: post ∧ Life.Op.stop h ∈ pre := by
  have hmsg : ∀ ops s, run client ops = some s → s.chan = .message → ∃ h, Life.Op.stop h ∈ ops := by
    apply run_ind (fun ops s => s.chan = .message → ∃ h, Life.Op.stop h ∈ ops)
    · intro h; cases h
    · intro pre s op s' _ ih hs hc
      rcases step_message hs hc with h | ⟨hd, rfl⟩
      · obtain ⟨hd, hh⟩ := ih h
        exact ⟨hd, by simp [hh]⟩
      · exact ⟨hd, by simp⟩
  revert hl
  apply run_ind (fun ops s => s.loop = false → Life.Op.readEnd ∈ ops ∨ ∃ pre post h, ops = pre ++ Life.Op.abort :: post ∧ Life.Op.stop h ∈ pre) ?_ ?_ ops s hr
  · intro h; cases h
  · intro pre s op s' hpre ih hs hl
    by_cases h1 : op = .abort
    · subst h1
      cases hls : s.loop with
      | false =>
        rcases ih hls with h | ⟨a, b, c, h, h'⟩
        · exact Or.inl (by simp [h])
        · exact Or.inr ⟨a, b ++ [.abort], c, by simp [h], h'⟩
      | true =>
        refine Or.inr ⟨pre, [], ?_⟩
        have hi := inv_run inv_client pre s hpre
        have hc : s.chan = .message := by
          simp only [step] at hs
          split at hs <;> try cases hs
          rename_i hc
          simp only [Bool.and_eq_true, decide_eq_true_eq] at hc
          cases hx : s.chan with
          | «open» => exact absurd hx hc.2
          | message => rfl
          | closed =>
            have := hi.closed hx
            rw [hi.stops, hls] at this
            simp [one] at this
        obtain ⟨hd, hh⟩ := hmsg pre s hpre hc
        exact ⟨hd, rfl, hh⟩
    · by_cases h2 : op = .readEnd
      · subst h2; exact Or.inl (by simp)
      · rw [(step_drop_loop hs h1 h2).1] at hl
        rcases ih hl with h | ⟨a, b, c, h, h'⟩
        · exact Or.inl (by simp [h])
        · exact Or.inr ⟨a, b ++ [op], c, by simp [h], h'⟩

/-- **C64.** So an abandoned client goes on: whatever contexts and futures are dropped, as long as nobody has called `stop` and the stream has not ended, the receive loop runs, and the connection
is open in both directions; received events are still handled. (A user would expect that a client without any context disconnects.) -/
theorem C64_abandoned_goes_on (ops : List Life.Op) (s : State) (hr : run client ops = some s) (h1 : Life.Op.readEnd ∉ ops) (h2 : ∀ h, Life.Op.stop h ∉ ops) :
    s.loop = true ∧ s.writeHalf = true ∧ ∀ new, get s.held new = none → ∃ s', step s (.spawn new) = some s' := by
  have hl : s.loop = true := by
    cases hl : s.loop with
    | true => rfl
    | false =>
      rcases C64_client_loop_ends ops s hr hl with h | ⟨a, b, c, he, h⟩
      · exact absurd h h1
      · exact absurd (by rw [he]; simp [h]) (h2 c)
  refine ⟨hl, (C64_write_half_iff _ (Or.inl rfl) ops s hr).2 (Or.inl hl), ?_⟩
  intro new hn
  simp [step, hl, hn]

/-- Such a client: its only context is dropped, nothing is left but the receive loop. -/
example : ∃ s, run client [.drop 0] = some s ∧ s.held = [] ∧ s.loop = true ∧ s.writeHalf = true := ⟨_, rfl, rfl, rfl, rfl⟩

/-- **C64.** `stop` works from every context, also from that of a handler, at any time: every `send` that it has done has succeeded (so `stop` has returned `Ok`), and as long as the receive
loop runs, a `stop` is followed by the abort, which ends it. -/
theorem C64_stop_works (ops : List Life.Op) (s : State) (hr : run client ops = some s) :
    (∀ b ∈ s.sends, b = true) ∧
    (s.loop = true → ∀ h, get s.held h = some .ctx → ∃ s' s'', step s (.stop h) = some s' ∧ step s' .abort = some s'' ∧ s''.loop = false ∧
      ∀ b ∈ s'.sends, b = true) := by
  have hi := inv_run inv_client ops s hr
  refine ⟨hi.sends, ?_⟩
  intro hl h hg
  have ha := client_aborter ops s hr hl
  have hs : step s (.stop h) = some (dropHold { sendStop s with held := remove s.held h } .ctx) := by simp only [step, hg]
  have hr' : run client (ops ++ [.stop h]) = some (dropHold { sendStop s with held := remove s.held h } .ctx) := by rw [run_concat, hr]; exact hs
  have hi' := inv_run inv_client _ _ hr'
  have hl' := (step_drop_loop hs (by simp) (by simp)).1
  have ha' := (step_drop_loop hs (by simp) (by simp)).2
  rw [hl] at hl'
  rw [ha] at ha'
  generalize dropHold { sendStop s with held := remove s.held h } .ctx = s' at *
  have hc : s'.chan ≠ .open := by
    intro hc
    have hcell := hi'.opened ha' hc
    -- the sender is not in the cell after `stop`
    have hno : s'.cell = false := by
      simp only [step, hg, Option.some.injEq] at hs
      subst hs
      unfold dropHold dropStops
      have hsc : (sendStop s).cell = false := by
        unfold sendStop
        split
        · rfl
        · simpa using ‹¬ s.cell = true›
      split
      · simp [hsc]
      · split <;> simp [hsc]
    rw [hno] at hcell
    cases hcell
  refine ⟨s', endLoop { s' with aborter := false }, hs, ?_, ?_, hi'.sends⟩
  · simp [step, ha', hc, hl']
  · simp [endLoop]

/-- **C64.** The receive loop of a server's connection ends exactly if reading ends; `stop` has no effect on it. -/
theorem C64_server_loop_ends_iff (ops : List Life.Op) (s : State) (hr : run server ops = some s) : s.loop = false ↔ Life.Op.readEnd ∈ ops := by
  have hmono : ∀ s op s', step s op = some s' → s.loop = false → s'.loop = false := by
    intro s op s' hs hl
    by_cases h1 : op = .abort
    · subst h1
      simp only [step] at hs
      split at hs <;> try cases hs
      rw [if_neg (by simp [hl])]
      exact hl
    · by_cases h2 : op = .readEnd
      · subst h2
        simp [step, hl] at hs
      · rw [(step_drop_loop hs h1 h2).1]; exact hl
  apply run_ind (fun ops s => s.loop = false ↔ Life.Op.readEnd ∈ ops) ?_ ?_ ops s hr
  · simp [server]
  · intro pre s op s' hpre ih hs
    by_cases h1 : op = .abort
    · subst h1
      have := (server_quiet pre s hpre).1
      simp [step, this] at hs
    · by_cases h2 : op = .readEnd
      · subst h2
        simp only [step] at hs
        split at hs <;> try cases hs
        simp [endLoop]
      · rw [(step_drop_loop hs h1 h2).1, ih]
        simp only [List.mem_append, List.mem_singleton]
        exact ⟨Or.inl, fun h => h.elim id fun h => absurd h.symm h2⟩

/-- **C64: `stop` does not close the connection**, although its documentation says so: while another clone of the context, or an emit or request, is left, the write half stays open; the
peer does not see the end of the stream, and the clone can still emit, but nothing is received any more. -/
theorem C64_violated_stop : ∃ s s', run client [.clone 0 1, .stop 0, .abort] = some s ∧ s.loop = false ∧ s.writeHalf = true ∧
    run s [.emit 1 2, .start 2] = some s' ∧ s'.writeHalf = true := ⟨_, _, rfl, rfl, rfl, rfl, rfl⟩

/-- **C65.** Building a pool makes connections until one attempt fails. If all succeed, all connections are in use. If one fails, its error is returned, and the connections made before it
are left: nobody has a context of them, but their receive loops run and they are open in both directions. (A user would expect that they are closed.) -/
theorem C65_failed_pool (net : Nat → Outcome Unit) (n : Nat) :
    (∀ i < n, net i = .ok ()) ∧ connectPool net n 0 [] = (List.replicate n client, .ok ()) ∨
    ∃ k < n, (∀ i < k, net i = .ok ()) ∧ (∀ u, net k ≠ .ok u) ∧ ∃ conns, connectPool net n 0 [] = (conns, net k) ∧ conns.length = k ∧
      ∀ s ∈ conns, s.loop = true ∧ s.writeHalf = true ∧ (net k ≠ .hang → s.held = []) ∧ (net k = .hang → s = client) := by
  suffices h : ∀ n i made, (∀ s ∈ made, s = client) →
      (∀ j < n, net (i + j) = .ok ()) ∧ connectPool net n i made = (made ++ List.replicate n client, .ok ()) ∨
      ∃ k < n, (∀ j < k, net (i + j) = .ok ()) ∧ (∀ u, net (i + k) ≠ .ok u) ∧ ∃ conns, connectPool net n i made = (conns, net (i + k)) ∧
        conns.length = made.length + k ∧ ∀ s ∈ conns, s.loop = true ∧ s.writeHalf = true ∧ (net (i + k) ≠ .hang → s.held = []) ∧ (net (i + k) = .hang → s = client) by
    simpa using h n 0 [] (by simp)
  intro n
  induction n with
  | zero => intro i made _; exact Or.inl ⟨by simp, by simp [connectPool]⟩
  | succ n ih =>
    intro i made hm
    have hmap : ∀ s ∈ made.map (fun s => (step s (.drop 0)).getD s), s.loop = true ∧ s.writeHalf = true ∧ s.held = [] := by
      intro s hs
      obtain ⟨t, ht, rfl⟩ := List.mem_map.1 hs
      rw [hm t ht]
      exact ⟨rfl, rfl, rfl⟩
    cases hn : net i with
    | ok u =>
      have hrec := ih (i + 1) (made ++ [client]) (by
        intro s hs
        simp only [List.mem_append, List.mem_singleton] at hs
        rcases hs with h | h
        · exact hm s h
        · exact h)
      have e1 : connectPool net (n + 1) i made = connectPool net n (i + 1) (made ++ [client]) := by simp only [connectPool, hn]
      have hsh : ∀ j, net (i + 1 + j) = net (i + (j + 1)) := by intro j; congr 1; omega
      have hall : ∀ k, (∀ j < k, net (i + 1 + j) = .ok ()) → ∀ j < k + 1, net (i + j) = .ok () := by
        intro k h j hj
        cases j with
        | zero => simpa using hn
        | succ j => rw [← hsh]; exact h j (by omega)
      rcases hrec with ⟨h1, h2⟩ | ⟨k, hk, h1, h2, conns, h3, h4, h5⟩
      · left
        refine ⟨hall n h1, ?_⟩
        rw [e1, h2, List.append_assoc]
        rfl
      · right
        rw [hsh k] at h3 h5 h2
        refine ⟨k + 1, by omega, hall k h1, h2, conns, by rw [e1, h3], ?_, h5⟩
        rw [h4, List.length_append, List.length_singleton]; omega
    | err e =>
      right
      refine ⟨0, by omega, by simp, by simp [hn], made.map (fun s => (step s (.drop 0)).getD s), by simp [connectPool, hn], by simp, ?_⟩
      intro s hs
      obtain ⟨a, b, c⟩ := hmap s hs
      exact ⟨a, b, fun _ => c, by simp [hn]⟩
    | panic =>
      right
      refine ⟨0, by omega, by simp, by simp [hn], made.map (fun s => (step s (.drop 0)).getD s), by simp [connectPool, hn], by simp, ?_⟩
      intro s hs
      obtain ⟨a, b, c⟩ := hmap s hs
      exact ⟨a, b, fun _ => c, by simp [hn]⟩
    | hang =>
      right
      refine ⟨0, by omega, by simp, by simp [hn], made, by simp [connectPool, hn], by simp, ?_⟩
      intro s hs
      rw [hm s hs]
      exact ⟨rfl, rfl, fun h => absurd (by simpa using hn) h, fun _ => rfl⟩

/-- A pool of 3 whose third connection is refused: two connections are left. -/
example : ∃ conns, connectPool (fun i => if i < 2 then .ok () else .err .timeout) 3 0 [] = (conns, .err .timeout) ∧ conns.length = 2 ∧
    ∀ s ∈ conns, s.held = [] ∧ s.loop = true := ⟨_, rfl, rfl, by decide⟩

/-- C65: the same loop as in `IPCBuilder.buildPooledClient` (C31). -/
theorem C65_same_loop {Addr Opts : Type} (op : NetOp Addr Opts) (net : Nat → Outcome Unit) (n i : Nat) (made : List State) (cs : List Unit) :
    (connectPool net n i made).2 = (match (connectLoop op net n i cs).2 with
      | .ok _ => .ok () | .err e => .err e | .panic => .panic | .hang => .hang) := by
  induction n generalizing i made cs with
  | zero => rfl
  | succ n ih =>
    cases hn : net i with
    | ok u => simp only [connectPool, connectLoop, hn]; exact ih _ _ _
    | _ => simp only [connectPool, connectLoop, hn]

end Bromine.Props
