import Verif.Model.Life
/-
Invariants of the reference counts of a connection.
-/
namespace Bromine.Life

def sum (f : Hold → Nat) : List (Nat × Hold) → Nat
  | [] => 0
  | p :: l => f p.2 + sum f l

theorem sum_append (f : Hold → Nat) (l m : List (Nat × Hold)) : sum f (l ++ m) = sum f l + sum f m := by
  induction l with
  | nil => simp [sum]
  | cons p l ih => simp only [List.cons_append, sum, ih]; omega

theorem get_cons (p : Nat × Hold) (l : List (Nat × Hold)) (h : Nat) : get (p :: l) h = if p.1 = h then some p.2 else get l h := by
  unfold get
  rw [List.find?_cons]
  by_cases hp : p.1 = h
  · simp [hp]
  · have : (p.1 == h) = false := by simp [hp]
    simp [hp, this]

theorem remove_cons (p : Nat × Hold) (l : List (Nat × Hold)) (h : Nat) : remove (p :: l) h = if p.1 = h then l else p :: remove l h := by
  unfold remove
  rw [List.eraseP_cons]
  by_cases hp : p.1 = h
  · simp [hp]
  · have : (p.1 == h) = false := by simp [hp]
    simp [hp, this]

theorem sum_remove (f : Hold → Nat) {l : List (Nat × Hold)} {h : Nat} {x : Hold} (hg : get l h = some x) : sum f (remove l h) + f x = sum f l := by
  induction l with
  | nil => simp [get] at hg
  | cons p l ih =>
    rw [get_cons] at hg
    rw [remove_cons]
    by_cases hp : p.1 = h
    · rw [if_pos hp] at hg ⊢
      injection hg with hg
      subst hg
      simp only [sum]; omega
    · rw [if_neg hp] at hg ⊢
      have := ih hg
      simp only [sum]; omega

theorem streams_pos (x : Hold) : 1 ≤ x.streams := by cases x <;> decide

theorem stops_le (x : Hold) : x.stops ≤ x.streams := by cases x <;> decide

theorem sum_streams_pos {l : List (Nat × Hold)} (h : l ≠ []) : 1 ≤ sum Hold.streams l := by
  cases l with
  | nil => exact absurd rfl h
  | cons p l => have := streams_pos p.2; simp only [sum]; omega

def one (b : Bool) : Nat := if b then 1 else 0

structure Inv (s : State) : Prop where
  streams : s.streamRc = one s.loop + sum Hold.streams s.held
  stops : s.stopRc = one s.loop + sum Hold.stops s.held
  half : s.writeHalf = true ↔ 0 < s.streamRc
  cellAborter : s.cell = true → s.aborter = true ∧ s.chan = .open
  opened : s.aborter = true → s.chan = .open → s.cell = true
  closed : s.chan = .closed → s.stopRc = 0
  sends : ∀ b ∈ s.sends, b = true

theorem inv_client : Inv client := by
  constructor <;> simp [client, one, sum, Hold.streams, Hold.stops]

theorem inv_server : Inv server := by
  constructor <;> simp [server, one, sum]

/-- Dropping `a` references to the write half and `b` to the cell, when the counts of `s` are too high by that. -/
structure Over (s : State) (a b : Nat) : Prop where
  streams : s.streamRc = one s.loop + sum Hold.streams s.held + a
  stops : s.stopRc = one s.loop + sum Hold.stops s.held + b
  half : s.writeHalf = true ↔ 0 < s.streamRc
  cellAborter : s.cell = true → s.aborter = true ∧ s.chan = .open
  opened : s.aborter = true → s.chan = .open → s.cell = true
  closed : s.chan = .closed → s.stopRc = 0
  sends : ∀ b ∈ s.sends, b = true

theorem Over.inv {s : State} (h : Over s 0 0) : Inv s := ⟨h.1, h.2, h.3, h.4, h.5, h.6, h.7⟩

theorem Inv.over {s : State} (h : Inv s) : Over s 0 0 := ⟨h.1, h.2, h.3, h.4, h.5, h.6, h.7⟩

theorem over_dropStreams {s : State} {a b n : Nat} (h : Over s (a + n) b) : Over (dropStreams s n) a b := by
  obtain ⟨h1, h2, h3, h4, h5, h6, h7⟩ := h
  unfold dropStreams
  by_cases hn : n = 0
  · rw [if_pos hn]
    subst hn
    exact ⟨h1, h2, h3, h4, h5, h6, h7⟩
  · rw [if_neg hn]
    refine ⟨by simp only; omega, h2, ?_, h4, h5, h6, h7⟩
    simp only
    split
    · rename_i h0; simp [h0]
    · rename_i h0
      rw [h3]
      omega

theorem over_dropStops {s : State} {a b n : Nat} (h : Over s a (b + n)) : Over (dropStops s n) a b := by
  obtain ⟨h1, h2, h3, h4, h5, h6, h7⟩ := h
  unfold dropStops
  by_cases hn : n = 0
  · rw [if_pos hn]
    subst hn
    exact ⟨h1, h2, h3, h4, h5, h6, h7⟩
  · rw [if_neg hn]
    split
    · rename_i h0
      refine ⟨h1, by simp only; omega, h3, by simp, ?_, ?_, h7⟩
      · simp only
        intro ha hc
        exfalso
        split at hc
        · cases hc
        · rename_i hcell
          exact hcell (h5 ha hc)
      · simp only
        intro _
        exact h0
    · rename_i h0
      refine ⟨h1, by simp only; omega, h3, h4, h5, ?_, h7⟩
      intro hc
      exact absurd (h6 hc) (by omega)

theorem over_dropHold {s : State} {a b : Nat} {x : Hold} (h : Over s (a + x.streams) (b + x.stops)) : Over (dropHold s x) a b :=
  over_dropStops (over_dropStreams h)

@[simp] theorem dropStreams_loop (s : State) (n : Nat) : (dropStreams s n).loop = s.loop := by unfold dropStreams; split <;> rfl
@[simp] theorem dropStreams_held (s : State) (n : Nat) : (dropStreams s n).held = s.held := by unfold dropStreams; split <;> rfl
@[simp] theorem dropStreams_cell (s : State) (n : Nat) : (dropStreams s n).cell = s.cell := by unfold dropStreams; split <;> rfl
@[simp] theorem dropStreams_chan (s : State) (n : Nat) : (dropStreams s n).chan = s.chan := by unfold dropStreams; split <;> rfl
@[simp] theorem dropStreams_aborter (s : State) (n : Nat) : (dropStreams s n).aborter = s.aborter := by unfold dropStreams; split <;> rfl
@[simp] theorem dropStreams_sends (s : State) (n : Nat) : (dropStreams s n).sends = s.sends := by unfold dropStreams; split <;> rfl
@[simp] theorem dropStops_loop (s : State) (n : Nat) : (dropStops s n).loop = s.loop := by unfold dropStops; repeat' split <;> try rfl
@[simp] theorem dropStops_held (s : State) (n : Nat) : (dropStops s n).held = s.held := by unfold dropStops; repeat' split <;> try rfl
@[simp] theorem dropStops_aborter (s : State) (n : Nat) : (dropStops s n).aborter = s.aborter := by unfold dropStops; repeat' split <;> try rfl
@[simp] theorem dropStops_sends (s : State) (n : Nat) : (dropStops s n).sends = s.sends := by unfold dropStops; repeat' split <;> try rfl
@[simp] theorem dropHold_loop (s : State) (x : Hold) : (dropHold s x).loop = s.loop := by simp [dropHold]
@[simp] theorem dropHold_held (s : State) (x : Hold) : (dropHold s x).held = s.held := by simp [dropHold]
@[simp] theorem dropHold_aborter (s : State) (x : Hold) : (dropHold s x).aborter = s.aborter := by simp [dropHold]
@[simp] theorem dropHold_sends (s : State) (x : Hold) : (dropHold s x).sends = s.sends := by simp [dropHold]

theorem dropHold_chan {s : State} {x : Hold} (h : (dropHold s x).chan = .message) : s.chan = .message := by
  unfold dropHold dropStops at h
  split at h
  · simpa using h
  · split at h
    · simp only at h
      split at h
      · cases h
      · simpa using h
    · simpa using h

theorem inv_endLoop {s : State} (h : Inv s) (hl : s.loop = true) : Inv (endLoop s) := by
  apply Over.inv
  apply over_dropHold
  obtain ⟨h1, h2, h3, h4, h5, h6, h7⟩ := h
  refine ⟨?_, ?_, h3, h4, h5, h6, h7⟩
  · simp only [h1, hl, one, Hold.streams]; simp; omega
  · simp only [h2, hl, one, Hold.stops]; simp; omega

theorem inv_step {s s' : State} {op : Op} (h : Inv s) (hs : step s op = some s') : Inv s' := by
  obtain ⟨h1, h2, h3, h4, h5, h6, h7⟩ := id h
  cases op with
  | clone hd new =>
    simp only [step] at hs
    split at hs <;> try cases hs
    rename_i g1 g2
    refine ⟨?_, ?_, ?_, h4, h5, ?_, h7⟩
    · simp only [addRefs, sum_append, sum, h1, Hold.streams]; omega
    · simp only [addRefs, sum_append, sum, h2, Hold.stops]; omega
    · have := sum_remove Hold.streams g1
      simp only [addRefs, Hold.streams, h3] at this ⊢; omega
    · intro hc
      have := sum_remove Hold.stops g1
      have := h6 hc
      simp only [Hold.stops] at *; omega
  | emit hd new =>
    simp only [step] at hs
    split at hs <;> try cases hs
    rename_i g1 g2
    refine ⟨?_, ?_, ?_, h4, h5, ?_, h7⟩
    · simp only [addRefs, sum_append, sum, h1, Hold.streams]; omega
    · simp only [addRefs, sum_append, sum, h2, Hold.stops]; omega
    · have := sum_remove Hold.streams g1
      simp only [addRefs, Hold.streams, h3] at this ⊢; omega
    · intro hc
      have := sum_remove Hold.stops g1
      have := h6 hc
      simp only [Hold.stops] at *; omega
  | start hd =>
    simp only [step] at hs
    split at hs <;> try cases hs
    rename_i g1
    have a1 := sum_remove Hold.streams g1
    have a2 := sum_remove Hold.stops g1
    apply Over.inv
    apply over_dropHold
    refine ⟨?_, ?_, h3, h4, h5, h6, h7⟩
    · simp only [sum_append, sum, h1, Hold.streams] at *; omega
    · simp only [sum_append, sum, h2, Hold.stops] at *; omega
  | startRequest hd =>
    simp only [step] at hs
    split at hs <;> try cases hs
    rename_i g1
    have a1 := sum_remove Hold.streams g1
    have a2 := sum_remove Hold.stops g1
    apply Over.inv
    apply over_dropHold
    refine ⟨?_, ?_, ?_, h4, h5, ?_, h7⟩
    · simp only [addRefs, sum_append, sum, h1, Hold.streams] at *; omega
    · simp only [addRefs, sum_append, sum, h2, Hold.stops] at *; omega
    · simp only [addRefs, Hold.streams, h3] at *; omega
    · intro hc
      have := h6 hc
      simp only [Hold.stops] at *; omega
  | written hd =>
    simp only [step] at hs
    split at hs <;> try cases hs
    rename_i g1
    have a1 := sum_remove Hold.streams g1
    have a2 := sum_remove Hold.stops g1
    apply Over.inv
    apply over_dropStreams
    refine ⟨?_, ?_, h3, h4, h5, h6, h7⟩
    · simp only [sum_append, sum, h1, Hold.streams] at *; omega
    · simp only [sum_append, sum, h2, Hold.stops] at *; omega
  | writtenStream hd =>
    simp only [step] at hs
    split at hs <;> try cases hs
    rename_i g1
    have a1 := sum_remove Hold.streams g1
    have a2 := sum_remove Hold.stops g1
    apply Over.inv
    apply over_dropStreams
    refine ⟨?_, ?_, h3, h4, h5, h6, h7⟩
    · simp only [sum_append, sum, h1, Hold.streams] at *; omega
    · simp only [sum_append, sum, h2, Hold.stops] at *; omega
  | drop hd =>
    simp only [step] at hs
    split at hs <;> try cases hs
    rename_i x g1
    have a1 := sum_remove Hold.streams g1
    have a2 := sum_remove Hold.stops g1
    apply Over.inv
    apply over_dropHold
    refine ⟨?_, ?_, h3, h4, h5, h6, h7⟩
    · simp only [h1] at *; omega
    · simp only [h2] at *; omega
  | stop hd =>
    simp only [step] at hs
    split at hs <;> try cases hs
    rename_i g1
    have a1 := sum_remove Hold.streams g1
    have a2 := sum_remove Hold.stops g1
    apply Over.inv
    apply over_dropHold
    unfold sendStop
    split
    · rename_i hc
      obtain ⟨c1, c2⟩ := h4 hc
      refine ⟨?_, ?_, h3, by simp, by simp, by simp, ?_⟩
      · simp only [h1] at *; omega
      · simp only [h2] at *; omega
      · intro b hb
        simp only [List.mem_append, List.mem_singleton] at hb
        rcases hb with hb | hb
        · exact h7 b hb
        · rw [hb, c1]
    · refine ⟨?_, ?_, h3, h4, h5, h6, h7⟩
      · simp only [h1] at *; omega
      · simp only [h2] at *; omega
  | abort =>
    simp only [step] at hs
    split at hs <;> try cases hs
    rename_i hc
    simp only [Bool.and_eq_true, decide_eq_true_eq] at hc
    have hi : Inv { s with aborter := false } :=
      ⟨h1, h2, h3, fun hx => absurd (h4 hx).2 hc.2, by simp, h6, h7⟩
    split
    · exact inv_endLoop hi (by assumption)
    · exact hi
  | spawn new =>
    simp only [step] at hs
    split at hs <;> try cases hs
    rename_i hl g2
    rw [hl] at h1 h2
    refine ⟨?_, ?_, ?_, h4, h5, ?_, h7⟩
    · simp only [addRefs, sum_append, sum, h1, hl, Hold.streams]; omega
    · simp only [addRefs, sum_append, sum, h2, hl, Hold.stops]; omega
    · simp only [addRefs, Hold.streams, h3, h1, one]; simp; omega
    · intro hc
      have := h6 hc
      simp only [one, if_true] at h2; omega
  | readEnd =>
    simp only [step] at hs
    split at hs <;> try cases hs
    exact inv_endLoop h (by assumption)

theorem run_concat {s : State} {ops : List Op} {op : Op} : run s (ops ++ [op]) = (run s ops).bind fun s => step s op := by
  induction ops generalizing s with
  | nil => simp [run]
  | cons o ops ih =>
    simp only [List.cons_append, run]
    cases step s o with
    | none => rfl
    | some s => simpa using ih

/-- Induction over runs, with the steps made so far. -/
theorem run_ind {s0 : State} (P : List Op → State → Prop) (h0 : P [] s0)
    (h1 : ∀ pre s op s', run s0 pre = some s → P pre s → step s op = some s' → P (pre ++ [op]) s') :
    ∀ ops s, run s0 ops = some s → P ops s := by
  intro ops
  rw [← List.reverse_reverse ops]
  induction ops.reverse with
  | nil => intro s hr; cases hr; exact h0
  | cons op l ih =>
    intro s hr
    rw [List.reverse_cons, run_concat] at hr
    cases hm : run s0 l.reverse with
    | none => rw [hm] at hr; cases hr
    | some m =>
      rw [hm] at hr
      rw [List.reverse_cons]
      exact h1 _ m op s hm (ih m hm) hr

theorem inv_run {s0 : State} (h : Inv s0) : ∀ ops s, run s0 ops = some s → Inv s :=
  run_ind (fun _ s => Inv s) h fun _ _ _ _ _ hi hs => inv_step hi hs

theorem step_drop_loop {s s' : State} {op : Op} (hs : step s op = some s') (h1 : op ≠ .abort) (h2 : op ≠ .readEnd) :
    s'.loop = s.loop ∧ s'.aborter = s.aborter := by
  cases op <;> simp only [step] at hs <;> (try split at hs) <;> try cases hs
  all_goals try exact absurd rfl h1
  all_goals try exact absurd rfl h2
  all_goals try (constructor <;> simp [addRefs]; done)
  all_goals (unfold sendStop; split <;> constructor <;> simp)

theorem step_message {s s' : State} {op : Op} (hs : step s op = some s') (h : s'.chan = .message) : s.chan = .message ∨ ∃ hd, op = .stop hd := by
  cases op with
  | stop hd => exact Or.inr ⟨_, rfl⟩
  | abort =>
    simp only [step] at hs
    split at hs <;> try cases hs
    split at h
    · have := dropHold_chan (s := { s with aborter := false, loop := false }) h
      exact Or.inl this
    · exact Or.inl h
  | readEnd =>
    simp only [step] at hs
    split at hs <;> try cases hs
    exact Or.inl (dropHold_chan (s := { s with loop := false }) h)
  | _ =>
    simp only [step] at hs
    split at hs <;> try cases hs
    first
      | exact Or.inl h
      | (refine Or.inl ?_; have := dropHold_chan h; simpa [addRefs] using this)
      | (refine Or.inl ?_; simpa [addRefs] using h)

/-- While the receive loop of a client runs, the task that can abort it waits. -/
theorem client_aborter : ∀ ops s, run client ops = some s → s.loop = true → s.aborter = true := by
  apply run_ind (fun _ s => s.loop = true → s.aborter = true)
  · intro _; rfl
  · intro pre s op s' _ ih hs hl
    by_cases h1 : op = .abort
    · subst h1
      simp only [step] at hs
      split at hs <;> try cases hs
      split at hl
      · simp [endLoop] at hl
      · rename_i hn; exact absurd hl hn
    · by_cases h2 : op = .readEnd
      · subst h2
        simp only [step] at hs
        split at hs <;> try cases hs
        simp [endLoop] at hl
      · obtain ⟨g1, g2⟩ := step_drop_loop hs h1 h2
        rw [g2]
        exact ih (by rw [← g1]; exact hl)

theorem server_quiet : ∀ ops s, run server ops = some s → s.aborter = false ∧ s.cell = false ∧ s.sends = [] := by
  apply run_ind (fun _ s => s.aborter = false ∧ s.cell = false ∧ s.sends = [])
  · exact ⟨rfl, rfl, rfl⟩
  · rintro pre s op s' hr ⟨ih, ih', ih''⟩ hs
    have hi := inv_run inv_server pre s hr
    have hc : s'.aborter = false ∧ s'.sends = [] := by
      cases op <;> simp only [step, ih] at hs <;> (try split at hs) <;> try cases hs
      all_goals try (simp [addRefs, endLoop, sendStop, ih, ih', ih'']; done)
      all_goals (rename_i hx; simp at hx)
    refine ⟨hc.1, ?_, hc.2⟩
    have hi' := inv_step hi hs
    cases hx : s'.cell with
    | false => rfl
    | true => have := (hi'.cellAborter hx).1; rw [hc.1] at this; cases this

end Bromine.Life
