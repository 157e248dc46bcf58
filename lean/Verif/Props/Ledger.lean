import Verif.Lemmas.Ledger
import Verif.Props.LayerDrop
/-
C87: what becomes of each event when emits on an encrypted connection (with any number of layers) are dropped.
-/
namespace Bromine.Props
open Bromine Bromine.Spec Bromine.CryptIO Bromine.Layers

section
variable {A : Aead} {l : Layer} {ls : List Layer} {checks : Bool}

/-- **C87, a ledger can always be kept.** Whatever the callers, the transport and the receiver do, there is a ledger of it (and a ledger is only ever of something that can happen). -/
theorem C87_kept (s : LState (l :: ls).length) (em rd : List Event) :
    Link.Hist ((Link.DropKind.droppingLayers A l ls).link checks) s em rd ↔ ∃ L, Ledgered A l ls checks s em rd L := by
  constructor
  · intro h
    have key : ∀ {s : ((Link.DropKind.droppingLayers A l ls).link checks).State} {em rd : List Event}, Link.Hist ((Link.DropKind.droppingLayers A l ls).link checks) s em rd →
        ∃ L, Ledgered A l ls checks s em rd L := by
      intro s em rd h
      induction h with
      | init => exact ⟨_, .start⟩
      | @step s s' em rd o h hs ih =>
        obtain ⟨L, ih⟩ := ih
        cases o with
        | drop => exact ⟨_, .drop ih hs⟩
        | deliver n => exact ⟨_, .deliver n ih hs⟩
        | wait => exact ⟨_, .wait ih hs⟩
        | poll as =>
          have hs' : dropStep A (n := ls.length + 1) s (.poll as) = some s' := hs
          cases hcur : LState.cur s with
          | none => simp only [dropStep, hcur] at hs'; cases hs'
          | some st => exact ⟨_, .poll as ih hcur hs⟩
      | @emit s s' em rd e h hs ih => obtain ⟨L, ih⟩ := ih; exact ⟨_, .emit e ih hs⟩
      | @read s s' em rd e h hs ih => obtain ⟨L, ih⟩ := ih; exact ⟨_, .read e ih hs⟩
    exact key h
  · rintro ⟨L, h⟩
    induction h with
    | start => exact .init
    | emit e _ hs ih => exact .emit e ih hs
    | poll as _ _ hs ih => exact .step _ ih hs
    | drop _ hs ih => exact .step _ ih hs
    | deliver n _ hs ih => exact .step _ ih hs
    | wait _ hs ih => exact .step _ ih hs
    | read e _ hs ih => exact .read e ih hs

/-- The rest of the packages is empty if nothing is unfinished. -/
theorem ledger_wire {s : LState (l :: ls).length} {em rd : List Event} {L : Ledger} (h : LedInv A l ls s em rd L) (hc : ∀ e ∈ em, CarryDrop ls e) :
    NestedGroups A (l :: ls) 0 L.sent (packs (sends A ls) A l 0 L.sent) ∧ s.wire A <+: packs (sends A ls) A l 0 L.sent ∧ (L.unfinished = none → s.wire A = packs (sends A ls) A l 0 L.sent) := by
  obtain ⟨gs, left, hi⟩ := h.inv
  have hsm : ∀ e ∈ L.sent.flatten, Small e := fun e he => CarryDrop.small (ls := ls) (hc e (hi.sub.subset (List.mem_append_left _ he)))
  obtain ⟨r, h1, hw⟩ := hi.good.shape
  refine ⟨nestedGroups_packs A l ls L.sent 0 hi.good.ne hsm, ⟨r, hw⟩, fun hu => ?_⟩
  have hl := h.left
  rw [hu] at hl
  obtain ⟨l1, l2⟩ := hl
  have hr : r = [] := by
    obtain ⟨⟨ws, t⟩, cur, sent, rr⟩ := s
    generalize L.sent = g at h1
    cases h1 with
    | idle => rfl
    | writing => simp at l1
    | flushWriting => simp at l2
    | flushing => simp at l2
  rw [hr, List.append_nil] at hw
  exact hw

/-- **C87, the ledger is right: the wire.** The bytes on the wire are the packages of the ledger, as far as they have been written, and all of them if nothing is unfinished; in the buffer are the frames of the events that wait;
what has been read is the first of the events that the ledger says are sent. -/
theorem C87_wire {s : LState (l :: ls).length} {em rd : List Event} {L : Ledger} (h : Ledgered A l ls checks s em rd L) (hc : ∀ e ∈ em, (Link.DropKind.droppingLayers A l ls).carries e) :
    ∃ all, NestedGroups A (l :: ls) 0 L.sent all ∧ s.wire A <+: all ∧ (L.unfinished = none → s.wire A = all) ∧ Frames L.waiting s.w.1.buffer ∧ rd <+: L.sent.flatten := by
  have hi := ledger_inv h hc
  obtain ⟨h1, h2, h3⟩ := ledger_wire hi hc
  obtain ⟨gs, left, hd⟩ := hi.inv
  refine ⟨_, h1, h2, h3, ?_, ?_⟩
  · rw [hd.good.buf]
    exact frames_framesOf fun e he => CarryDrop.small (ls := ls) (hc e (hd.sub.subset (List.mem_append_right _ he)))
  · obtain ⟨more, hm⟩ := hd.taken
    rw [← hm, List.flatten_append, ← hd.order, List.append_assoc]
    exact List.prefix_append _ _

/-- **C87, the ledger is complete.** Every event whose emit has got the connection is in the ledger once: it is sent, it waits, it is lost, or its emit has not been polled yet. What is sent or waits is in the order of the
emits. -/
theorem C87_account {s : LState (l :: ls).length} {em rd : List Event} {L : Ledger} (h : Ledgered A l ls checks s em rd L) (hc : ∀ e ∈ em, (Link.DropKind.droppingLayers A l ls).carries e) :
    em.Perm (L.sent.flatten ++ L.waiting ++ L.lost ++ L.fresh) ∧ (L.sent.flatten ++ L.waiting).Sublist em ∧ (s.cur = none ↔ L.cur = none) ∧ (L.unfinished = some .write → L.waiting = []) := by
  have hi := ledger_inv h hc
  obtain ⟨gs, left, hd⟩ := hi.inv
  refine ⟨hi.all, hd.sub, ?_, fun hu => ?_⟩
  · have hh := hi.holds
    cases h1 : s.cur <;> cases h2 : L.cur <;> rw [h1, h2] at hh <;> first | exact hh.elim | simp
  · have hl := hi.left
    rw [hu] at hl
    exact (hd.good.in_write hl).2

/-- **C87, exactly when an emit panics.** At its first poll, if the flush of an emit that was dropped is unfinished and the frames that wait and the new one are 1024 bytes or more. Then nothing is written. -/
theorem C87_panics {s s' : LState (l :: ls).length} {em rd : List Event} {L : Ledger} (h : Ledgered A l ls checks s em rd L) (hc : ∀ e ∈ em, (Link.DropKind.droppingLayers A l ls).carries e) {st : Stage}
    (hst : s.cur = some st) {as : List IoAns} (hs : ((Link.DropKind.droppingLayers A l ls).link checks).step s (.poll as) = some s') :
    ((pollEmit (layersW A (l :: ls).length) ((layersW A (l :: ls).length).setBase s.w { answers := as, wire := s.wire A }) st).1 = .panic ↔
      ∃ e, L.cur = some (e, false) ∧ L.unfinished = some .flush ∧ 1024 ≤ (L.waiting.map frameSize).sum + frameSize e) ∧
    ((pollEmit (layersW A (l :: ls).length) ((layersW A (l :: ls).length).setBase s.w { answers := as, wire := s.wire A }) st).1 = .panic → s'.wire A = s.wire A) := by
  obtain ⟨-, h1, h2⟩ := ledger_poll (ledger_inv h hc) hc hst hs
  have ht : ∀ {τ : Type} (x : Poll Unit × Stage × τ), told x = .panicked ↔ x.1 = .panic := by
    rintro τ ⟨p, st, w⟩
    cases p <;> cases st <;> simp [told]
  rw [ht] at h1
  exact ⟨h1, fun hp => h2 ((ht _).2 hp)⟩

/-- **C87, what is sent is read.** If nothing is unfinished, a peer with the same layers to which all bytes have come, however the socket cuts them, reads exactly the events that the ledger says are sent, and then waits, or sees the
end of the stream. -/
theorem C87_reads {s : LState (l :: ls).length} {em rd : List Event} {L : Ledger} (h : Ledgered A l ls checks s em rd L) (hc : ∀ e ∈ em, (Link.DropKind.droppingLayers A l ls).carries e) (hu : L.unfinished = none)
    (checks' : Bool) (sc : Script) (hsc : sc.bytes = s.wire A) (fuel : Nat) (hf : em.length < fuel) :
    readLoop (source (layersR A (l :: ls).length)) checks' fuel (startR sc (l :: ls)) = (L.sent.flatten, if sc.closed then .err (.io .unexpectedEof) else .hang) := by
  have hi := ledger_inv h hc
  obtain ⟨h1, h2, h3⟩ := ledger_wire hi hc
  obtain ⟨gs, left, hd⟩ := hi.inv
  have hsub : L.sent.flatten.Sublist em := (List.sublist_append_left _ _).trans hd.sub
  have hst := receives_start A sc ls
  have hfl : flat sc.chunks = sc.bytes := rfl
  rw [hfl, hsc, h3 hu] at hst
  have := readLoop_packs (A := A) (l := l) (checks := checks') fuel 0 L.sent [] _ [] (fun e he => CarryDrop.small (ls := ls) (hc e (hsub.subset (by simpa using he)))) hd.good.ne
    (by have := hsub.length_le; simp only [List.nil_append]; omega) (.inl rfl) (by rw [List.append_nil]; exact hst)
  exact this

theorem Ledger_first_grows (L : Ledger) (e : Event) : L.sent <+: (L.first e).sent ∧ L.lost <+: (L.first e).lost := by
  unfold Ledger.first
  split
  · exact ⟨List.prefix_append _ _, List.prefix_rfl⟩
  · exact ⟨List.prefix_rfl, List.prefix_append _ _⟩
  · split
    · exact ⟨List.prefix_rfl, List.prefix_rfl⟩
    · refine ⟨List.prefix_rfl, ?_⟩
      rw [List.append_assoc]
      exact List.prefix_append _ _

/-- **C87, the ledger is final.** What is sent stays sent, in the same packages, and what is lost stays lost, whatever happens. -/
theorem C87_final {s0 s : LState (l :: ls).length} {L0 L : Ledger} {em rd : List Event} (h : Since A l ls checks s0 L0 s em rd L) : L0.sent <+: L.sent ∧ L0.lost <+: L.lost := by
  induction h with
  | start => exact ⟨List.prefix_rfl, List.prefix_rfl⟩
  | emit e _ _ ih => exact ih
  | @poll s s' em rd L st as _ _ _ ih =>
    have key : ∀ t, L.sent <+: (L.poll t).sent ∧ L.lost <+: (L.poll t).lost := by
      intro t
      unfold Ledger.poll
      split
      · exact ⟨List.prefix_rfl, List.prefix_rfl⟩
      · rename_i e polled hc
        have := Ledger_first_grows L e
        cases polled <;> cases t <;> first | exact this | exact ⟨List.prefix_rfl, List.prefix_rfl⟩
    exact ⟨ih.1.trans (key _).1, ih.2.trans (key _).2⟩
  | @drop s s' em rd L _ _ ih =>
    refine ⟨ih.1.trans ?_, ih.2.trans ?_⟩ <;> unfold Ledger.drop <;> split <;> first | exact List.prefix_rfl | exact List.prefix_append _ _
  | deliver n _ _ ih => exact ih
  | wait _ _ ih => exact ih
  | read e _ _ ih => exact ih

/-- Polls of one emit, from its first on a connection where nothing is unfinished. -/
theorem clean_polls {e : Event} {L0 : Ledger} : ∀ (polls : List (List IoAns)) {s s' : LState (l :: ls).length} {em rd : List Event} {L : Ledger}, Ledgered A l ls checks s em rd L →
    (∀ e ∈ em, (Link.DropKind.droppingLayers A l ls).carries e) →
    (L = { L0 with cur := some (e, false) } ∨ ∃ u, L = { L0 with sent := L0.sent ++ [L0.waiting ++ [e]], waiting := [], unfinished := some u, cur := some (e, true) }) → L0.unfinished = none →
    ((Link.DropKind.droppingLayers A l ls).link checks).steps s (polls.map .poll) = some s' → s'.cur = none →
    Ledgered A l ls checks s' em rd { L0 with sent := L0.sent ++ [L0.waiting ++ [e]], waiting := [], cur := none } := by
  intro polls
  induction polls with
  | nil =>
    intro s s' em rd L h hc hL hu hs hn
    cases hs
    have := (C87_account h hc).2.2.1.1 hn
    rcases hL with rfl | ⟨u, rfl⟩ <;> cases this
  | cons as polls ih =>
    intro s s' em rd L h hc hL hu hs hn
    obtain ⟨s1, h1, h2⟩ := Option.bind_eq_some_iff.1 hs
    cases hcur : s.cur with
    | none =>
      have := (C87_account h hc).2.2.1.1 hcur
      rcases hL with rfl | ⟨u, rfl⟩ <;> cases this
    | some st =>
      have hp := Since.poll as h hcur h1
      obtain ⟨hpan, -⟩ := C87_panics h hc hcur h1
      generalize pollEmit (layersW A (l :: ls).length) ((layersW A (l :: ls).length).setBase s.w { answers := as, wire := s.wire A }) st = x at hp hpan
      obtain ⟨p, st', w'⟩ := x
      have hnp : p ≠ .panic := by
        intro hpp
        obtain ⟨e', g1, g2, -⟩ := hpan.1 hpp
        rcases hL with rfl | ⟨u, rfl⟩
        · rw [hu] at g2; cases g2
        · cases g1
      have key : ∀ t, (t ≠ .panicked) → L.poll t = (match t with
          | .ok => { L0 with sent := L0.sent ++ [L0.waiting ++ [e]], waiting := [], cur := none }
          | .inWrite => { L0 with sent := L0.sent ++ [L0.waiting ++ [e]], waiting := [], unfinished := some .write, cur := some (e, true) }
          | .inFlush => { L0 with sent := L0.sent ++ [L0.waiting ++ [e]], waiting := [], unfinished := some .flush, cur := some (e, true) }
          | .panicked => L) := by
        intro t ht
        rcases hL with rfl | ⟨u, rfl⟩
        · cases t <;> simp [Ledger.poll, Ledger.first, hu] at ht ⊢
        · cases t <;> simp [Ledger.poll, hu] at ht ⊢
      cases p with
      | panic => exact absurd rfl hnp
      | ready r =>
        rw [show told (Poll.ready r, st', w') = .ok from rfl, key .ok (by simp)] at hp
        have hn1 := (C87_account hp hc).2.2.1.2 rfl
        cases polls with
        | nil => cases h2; exact hp
        | cons as' polls =>
          obtain ⟨s2, h3, -⟩ := Option.bind_eq_some_iff.1 h2
          have h3 : dropStep A (n := ls.length + 1) s1 (.poll as') = some s2 := h3
          simp only [dropStep, hn1] at h3
          cases h3
      | pending b =>
        cases st' with
        | writing rem =>
          rw [show told (Poll.pending b, Stage.writing rem, w') = .inWrite from rfl, key .inWrite (by simp)] at hp
          exact ih hp hc (.inr ⟨_, rfl⟩) hu h2 hn
        | flushing =>
          rw [show told (Poll.pending b, Stage.flushing, w') = .inFlush from rfl, key .inFlush (by simp)] at hp
          exact ih hp hc (.inr ⟨_, rfl⟩) hu h2 hn

/-- **C87, after an `Ok` all is well.** If nothing is unfinished (at the beginning, and whenever an emit has just returned `Ok`), an emit that is polled to its end does not panic, and then all is on the wire: the event and all
that waited for it. And nothing is unfinished again. -/
theorem C87_undisturbed {s s1 s2 : LState (l :: ls).length} {em rd : List Event} {L : Ledger} {e : Event} (h : Ledgered A l ls checks s em rd L)
    (hc : ∀ e ∈ em, (Link.DropKind.droppingLayers A l ls).carries e) (he : (Link.DropKind.droppingLayers A l ls).carries e) (hu : L.unfinished = none)
    (hs : ((Link.DropKind.droppingLayers A l ls).link checks).emit s e = some s1) (polls : List (List IoAns))
    (hp : ((Link.DropKind.droppingLayers A l ls).link checks).steps s1 (polls.map .poll) = some s2) (hend : s2.cur = none) :
    Ledgered A l ls checks s2 (em ++ [e]) rd { L with sent := L.sent ++ [L.waiting ++ [e]], waiting := [] } ∧ NestedGroups A (l :: ls) 0 (L.sent ++ [L.waiting ++ [e]]) (s2.wire A) := by
  have hc' : ∀ e' ∈ em ++ [e], (Link.DropKind.droppingLayers A l ls).carries e' := by
    intro e' he'
    rw [List.mem_append, List.mem_singleton] at he'
    rcases he' with h | rfl
    · exact hc e' h
    · exact he
  have hsc : s.cur = none := by
    obtain ⟨gs, left, hd⟩ := (ledger_inv h hc).inv
    exact (dinv_emit hd hs).2.2.1
  have hlc := (C87_account h hc).2.2.1.1 hsc
  have := clean_polls (L0 := L) (e := e) polls (Since.emit e h hs) hc' (.inl rfl) hu hp hend
  have hL : ({ L with sent := L.sent ++ [L.waiting ++ [e]], waiting := [], cur := none } : Ledger) = { L with sent := L.sent ++ [L.waiting ++ [e]], waiting := [] } := by
    obtain ⟨a, b, c, d, f⟩ := L
    cases hlc
    rfl
  rw [hL] at this
  refine ⟨this, ?_⟩
  obtain ⟨all, k1, -, k3, -⟩ := C87_wire this hc'
  rw [k3 hu]
  exact k1

/-- **C87, large events panic for ever.** (A user would expect that a panic is over with its emit.) If the flush of a dropped emit is unfinished, then, as long as all events emitted have frames of 1024 bytes or more, however many, each of
their emits is lost: it panics when it is polled. Not a byte goes to the wire any more, not even the rest of the package of the dropped emit. -/
theorem C87_violated_stuck {s0 s : LState (l :: ls).length} {em0 rd0 em rd : List Event} {L0 L : Ledger} (h0 : Ledgered A l ls checks s0 em0 rd0 L0) (hcur : L0.cur = none) (hu : L0.unfinished = some .flush)
    (h : Since A l ls checks s0 L0 s em rd L) (hc : ∀ e ∈ em0 ++ em, (Link.DropKind.droppingLayers A l ls).carries e) (hbig : ∀ e ∈ em, 1024 ≤ frameSize e) :
    s.wire A = s0.wire A ∧ L.sent = L0.sent ∧ L.unfinished = some .flush ∧ (∀ e ∈ em, e ∈ L.lost ∨ L.cur = some (e, false)) ∧ (∀ e, L.cur ≠ some (e, true)) := by
  induction h with
  | start => exact ⟨rfl, rfl, hu, by simp, by simp [hcur]⟩
  | @emit s s' em rd L e h hs ih =>
    obtain ⟨h1, h2, h3, h4, h5⟩ := ih (fun e' he' => hc e' (by rw [← List.append_assoc]; exact List.mem_append_left _ he')) fun e' he' => hbig e' (List.mem_append_left _ he')
    have hi := ledger_since (ledger_inv h0 fun e he => hc e (List.mem_append_left _ he)) h (fun e' he' => hc e' (by rw [← List.append_assoc]; exact List.mem_append_left _ he'))
    obtain ⟨gs, left, hd⟩ := hi.inv
    obtain ⟨-, k2, k3, k4⟩ := dinv_emit hd hs
    refine ⟨?_, h2, h3, ?_, by simp [Ledger.emit]⟩
    · rw [← h1]
      show ((layersW A (l :: ls).length).base s'.w).wire = _
      rw [k2]
      rfl
    · intro e' he'
      rw [List.mem_append, List.mem_singleton] at he'
      rcases he' with he' | rfl
      · refine (h4 e' he').imp id fun hcu => ?_
        have hh := hi.holds
        rw [k3, hcu] at hh
        exact hh.elim
      · exact .inr rfl
  | @poll s s' em rd L st as h hst hs ih =>
    obtain ⟨h1, h2, h3, h4, h5⟩ := ih hc hbig
    have hi := ledger_since (ledger_inv h0 fun e he => hc e (List.mem_append_left _ he)) h hc
    obtain ⟨-, k1, k2⟩ := ledger_poll hi hc hst hs
    change told (pollEmit (layersW A (l :: ls).length) ((layersW A (l :: ls).length).setBase s.w { answers := as, wire := s.wire A }) st) = .panicked ↔ _ at k1
    change told (pollEmit (layersW A (l :: ls).length) ((layersW A (l :: ls).length).setBase s.w { answers := as, wire := s.wire A }) st) = .panicked → _ at k2
    have hh := hi.holds
    rw [hst] at hh
    rcases hL : L.cur with _ | ⟨e, polled⟩
    · rw [hL] at hh; exact hh.elim
    · cases polled with
      | true => exact absurd hL (h5 e)
      | false =>
        rw [hL] at hh
        have hem : e ∈ em := by
          -- the emit got the connection after the drop
          have hne : ∀ {s em rd L}, Since A l ls checks s0 L0 s em rd L → ∀ e b, L.cur = some (e, b) → e ∈ em := by
            intro s em rd L h
            induction h with
            | start => intro e b h; rw [hcur] at h; cases h
            | emit e _ _ ih => intro e' b h'; cases h'; simp
            | @poll s s' em rd L st as _ _ _ ih =>
              intro e b h'
              cases hL : L.cur with
              | none => simp only [Ledger.poll, hL] at h'; cases h'
              | some x =>
                obtain ⟨e', b'⟩ := x
                simp only [Ledger.poll, hL] at h'
                split at h'
                · cases h'
                · cases h'; exact ih e b' hL
                · cases h'; exact ih e b' hL
                · cases h'
            | @drop s s' em rd L _ _ ih =>
              intro e b h'
              unfold Ledger.drop at h'
              split at h' <;> cases h'
            | deliver n _ _ ih => exact ih
            | wait _ _ ih => exact ih
            | read e _ _ ih => exact ih
          exact hne h e false hL
        have hpan := k1.2 ⟨e, hL, h3, by have := hbig e hem; omega⟩
        rw [hpan]
        have hpoll : L.poll .panicked = { L with lost := L.lost ++ L.waiting ++ [e], waiting := [], cur := none } := by
          have hb : ¬ (L.waiting.map frameSize).sum + frameSize e < 1024 := by have := hbig e hem; omega
          simp only [Ledger.poll, hL, Ledger.first, h3, if_neg hb, Bool.false_eq_true, if_false]
        rw [hpoll]
        refine ⟨(k2 hpan).trans h1, h2, h3, ?_, by simp⟩
        intro e' he'
        rcases h4 e' he' with g | g
        · exact .inl (by simp [g])
        · rw [hL] at g; cases g; exact .inl (by simp)
  | @drop s s' em rd L h hs ih =>
    obtain ⟨h1, h2, h3, h4, h5⟩ := ih hc hbig
    have hw : s'.wire A = s.wire A := by
      obtain ⟨w, cur, sent, r⟩ := s
      cases cur with
      | none => cases hs
      | some st => cases hs; rfl
    refine ⟨hw.trans h1, ?_, ?_, ?_, ?_⟩
    · unfold Ledger.drop; split <;> exact h2
    · unfold Ledger.drop; split <;> exact h3
    · intro e he
      unfold Ledger.drop
      split
      · rename_i e' hL
        rcases h4 e he with g | g
        · exact .inl (by simp [g])
        · rw [hL] at g; cases g; exact .inl (by simp)
      · rename_i hno
        rcases h4 e he with g | g
        · exact .inl g
        · exact absurd g (hno e)
    · intro e; unfold Ledger.drop; split <;> simp
  | @deliver s s' em rd L n h hs ih =>
    obtain ⟨h1, h2, h3, h4, h5⟩ := ih hc hbig
    have hi := ledger_since (ledger_inv h0 fun e he => hc e (List.mem_append_left _ he)) h hc
    obtain ⟨gs, left, hd⟩ := hi.inv
    obtain ⟨-, k2, -⟩ := dinv_other (o := .deliver n) hd (by simp) hs
    refine ⟨?_, h2, h3, h4, h5⟩
    rw [← h1]; show ((layersW A (l :: ls).length).base s'.w).wire = _; rw [k2]; rfl
  | @wait s s' em rd L h hs ih =>
    obtain ⟨h1, h2, h3, h4, h5⟩ := ih hc hbig
    have hi := ledger_since (ledger_inv h0 fun e he => hc e (List.mem_append_left _ he)) h hc
    obtain ⟨gs, left, hd⟩ := hi.inv
    obtain ⟨-, k2, -⟩ := dinv_other (o := .wait) hd (by simp) hs
    refine ⟨?_, h2, h3, h4, h5⟩
    rw [← h1]; show ((layersW A (l :: ls).length).base s'.w).wire = _; rw [k2]; rfl
  | @read s s' em rd L e h hs ih =>
    obtain ⟨h1, h2, h3, h4, h5⟩ := ih hc hbig
    have hi := ledger_since (ledger_inv h0 fun e he => hc e (List.mem_append_left _ he)) h hc
    obtain ⟨gs, left, hd⟩ := hi.inv
    obtain ⟨-, k2, -⟩ := dinv_read hd hc hs
    refine ⟨?_, h2, h3, h4, h5⟩
    rw [← h1]; show ((layersW A (l :: ls).length).base s'.w).wire = _; rw [k2]; rfl

end

/-! ### Examples -/

/-- Steps with the ledger. -/
def ledgerRun (s : LState 2) (L : Ledger) : List DropLinkOp → Option (LState 2 × List Event × List Event × Ledger)
  | [] => some (s, [], [], L)
  | .step (.poll as) :: os =>
    match s.cur with
    | some st => ((demoDrops.link true).step s (.poll as)).bind fun s' =>
        ledgerRun s' (L.poll (told (pollEmit (layersW toyAead 2) ((layersW toyAead 2).setBase s.w { answers := as, wire := s.wire toyAead }) st))) os
    | none => none
  | .step .drop :: os => ((demoDrops.link true).step s .drop).bind fun s => ledgerRun s L.drop os
  | .step (.deliver n) :: os => ((demoDrops.link true).step s (.deliver n)).bind fun s => ledgerRun s L os
  | .step .wait :: os => ((demoDrops.link true).step s .wait).bind fun s => ledgerRun s L os
  | .emit e :: os => ((demoDrops.link true).emit s e).bind fun s => (ledgerRun s (L.emit e) os).map fun (s, em, rd, L) => (s, e :: em, rd, L)
  | .read :: os => ((demoDrops.link true).read s).bind fun (e, s) => (ledgerRun s L os).map fun (s, em, rd, L) => (s, em, e :: rd, L)

theorem ledgerRun_since : ∀ (os : List DropLinkOp) {s0 s s' : LState 2} {L0 L L' : Ledger} {em em' rd rd' : List Event}, Since toyAead { key := [1] } [{ key := [2], start := 2 }] true s0 L0 s em rd L →
    ledgerRun s L os = some (s', em', rd', L') → Since toyAead { key := [1] } [{ key := [2], start := 2 }] true s0 L0 s' (em ++ em') (rd ++ rd') L' := by
  intro os
  induction os with
  | nil => intro s0 s s' L0 L L' em em' rd rd' h hr; cases hr; simpa using h
  | cons o os ih =>
    intro s0 s s' L0 L L' em em' rd rd' h hr
    cases o with
    | step o =>
      cases o with
      | poll as =>
        cases hst : s.cur with
        | none => simp only [ledgerRun, hst] at hr; cases hr
        | some st =>
          simp only [ledgerRun, hst] at hr
          obtain ⟨s1, h1, h2⟩ := Option.bind_eq_some_iff.1 hr
          exact ih (.poll as h hst h1) h2
      | drop =>
        obtain ⟨s1, h1, h2⟩ := Option.bind_eq_some_iff.1 hr
        exact ih (.drop h h1) h2
      | deliver n =>
        obtain ⟨s1, h1, h2⟩ := Option.bind_eq_some_iff.1 hr
        exact ih (.deliver n h h1) h2
      | wait =>
        obtain ⟨s1, h1, h2⟩ := Option.bind_eq_some_iff.1 hr
        exact ih (.wait h h1) h2
    | emit e =>
      obtain ⟨s1, h1, h2⟩ := Option.bind_eq_some_iff.1 hr
      obtain ⟨⟨s2, em2, rd2, L2⟩, h3, h4⟩ := Option.map_eq_some_iff.1 h2
      cases h4
      have := ih (.emit e h h1) h3
      simpa using this
    | read =>
      obtain ⟨⟨e, s1⟩, h1, h2⟩ := Option.bind_eq_some_iff.1 hr
      obtain ⟨⟨s2, em2, rd2, L2⟩, h3, h4⟩ := Option.map_eq_some_iff.1 h2
      cases h4
      have := ih (.read e h h1) h3
      simpa using this

/-- A run with its ledger. -/
theorem ledger_example {os : List DropLinkOp} {em rd : List Event} {L : Ledger}
    (h : ((ledgerRun (demoDrops.link true).init {} os).map fun (_, em', rd', L') => decide (em' = em ∧ rd' = rd ∧ L' = L)) = some true) :
    ∃ s, Ledgered toyAead { key := [1] } [{ key := [2], start := 2 }] true s em rd L := by
  obtain ⟨⟨s, em', rd', L'⟩, h1, h2⟩ := Option.map_eq_some_iff.1 h
  simp only [decide_eq_true_eq] at h2
  obtain ⟨rfl, rfl, rfl⟩ := h2
  exact ⟨s, by simpa using ledgerRun_since os .start h1⟩

/-- Two emits are dropped: the first was not polled, it is lost; the second is sent; the third returns `Ok` and waits, and goes out with the fourth. -/
example : ∃ s, Ledgered toyAead { key := [1] } [{ key := [2], start := 2 }] true s [ev2, ev1, ev2, ev3] [ev1, ev2, ev3] { sent := [[ev1], [ev2, ev3]], lost := [ev2] } :=
  ledger_example (os := opsDrops) (by decide +kernel)

set_option maxRecDepth 10000 in
/-- A big event is dropped in its write: it is sent, and the next event is lost although its emit returns `Ok`. -/
example : ∃ s, Ledgered toyAead { key := [1] } [{ key := [2], start := 2 }] true s [evBig, ev1, ev2] [evBig, ev2] { sent := [[evBig], [ev2]], lost := [ev1] } :=
  ledger_example (os := opsLost) (by decide +kernel)

/-- The hypotheses of `C87_violated_stuck` can be met: a small event is dropped in its flush. -/
example : ∃ s, Ledgered toyAead { key := [1] } [{ key := [2], start := 2 }] true s [ev1] [] { sent := [[ev1]], unfinished := some .flush } :=
  ledger_example (os := opsPanic.take 3) (by decide +kernel)

/-- Two big events after that are lost. -/
example : ∃ s, Ledgered toyAead { key := [1] } [{ key := [2], start := 2 }] true s [ev1, evBig, evBig] [] { sent := [[ev1]], lost := [evBig, evBig], unfinished := some .flush } :=
  ledger_example (os := opsPanic ++ [.step (.poll [.ready 5000]), .emit evBig, .step (.poll [.ready 5000])]) (by decide +kernel)

/-- And the first smaller event after that finishes the package, but waits itself; the next one sends it. -/
example : ∃ s, Ledgered toyAead { key := [1] } [{ key := [2], start := 2 }] true s [ev1, evBig, ev2, ev3] [] { sent := [[ev1], [ev2, ev3]], lost := [evBig] } :=
  ledger_example (os := opsPanic ++ [.step (.poll [.ready 5000]), .emit ev2, .step (.poll [.ready 5000, .ready 1]), .emit ev3, .step (.poll [.ready 5000, .ready 1])]) (by decide +kernel)

end Bromine.Props
