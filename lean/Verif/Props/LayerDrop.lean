import Verif.Lemmas.LayerDropLink
import Verif.Spec.LayerDrop
import Verif.Props.Layers
/-
C86: emits on a connection with encrypted layers in each other that are dropped at any point.
-/
namespace Bromine.Props
open Bromine Bromine.Spec Bromine.CryptIO Bromine.Layers

theorem frames_framesOf : ∀ {es : List Event}, (∀ e ∈ es, Small e) → Frames es (framesOf es) := by
  intro es
  induction es with
  | nil => intro _; rfl
  | cons e es ih => intro h; exact ⟨_, _, frame_layout (h e (by simp)), framesOf_cons e es, ih fun x hx => h x (by simp [hx])⟩

theorem frames_unique : ∀ {es : List Event} {a b : Bytes}, Frames es a → Frames es b → a = b := by
  intro es
  induction es with
  | nil => intro a b h h'; rw [show a = [] from h, show b = [] from h']
  | cons e es ih =>
    rintro a b ⟨f, r, h1, rfl, h2⟩ ⟨f', r', g1, rfl, g2⟩
    rw [frameLayout_unique h1 g1, ih h2 g2]

theorem nestedGroups_unique {A : Aead} {ls : List Layer} : ∀ {gs : List (List Event)} {i : Nat} {a b : Bytes}, NestedGroups A ls i gs a → NestedGroups A ls i gs b → a = b := by
  intro gs
  induction gs with
  | nil => intro i a b h h'; rw [show a = [] from h, show b = [] from h']
  | cons g gs ih =>
    rintro i a b ⟨f, p, r, h1, h2, rfl, h3⟩ ⟨f', p', r', g1, g2, rfl, g3⟩
    have e1 := frames_unique h1 g1
    subst e1
    rw [nested_unique h2 g2, ih h3 g3]

/-- The packages fit. -/
def GroupOk (A : Aead) (ls : List Layer) (g : List Event) : Prop := g ≠ [] ∧ LOk (sends A ls) (framesOf g).length

theorem okL_of_sends (A : Aead) : ∀ (ls : List Layer) {n : Nat}, (sends A ls).ok n → okL ls n := by
  intro ls
  induction ls with
  | nil => intro n h; exact h
  | cons l ls ih => intro n h; exact ⟨h.1, h.2.1, ih h.2.2⟩

theorem nestedGroups_packs (A : Aead) (l : Layer) (ls : List Layer) : ∀ (gs : List (List Event)) (i : Nat), (∀ g ∈ gs, GroupOk A ls g) → (∀ e ∈ gs.flatten, Small e) →
    NestedGroups A (l :: ls) i gs (packs (sends A ls) A l i gs) := by
  intro gs
  induction gs with
  | nil => intro i _ _; rfl
  | cons g gs ih =>
    intro i h hs
    obtain ⟨-, h1, h2, h3⟩ := h g (by simp)
    refine ⟨_, _, _, frames_framesOf fun e he => hs e (by simp [he]), ⟨_, package_pkg A l i h2, ?_⟩, rfl, ih (i + 1) (fun g hg => h g (by simp [hg])) fun e he => hs e (by
      rw [List.flatten_cons, List.mem_append]; exact .inr he)⟩
    rw [sends_wrap]
    exact nested_wrapL A i ls (by rw [length_pkg A l i h2]; exact okL_of_sends A ls h3)

section
variable {A : Aead} {l : Layer} {ls : List Layer} {checks : Bool}

/-- **C86, the wire.** Any number of encrypted layers in each other, and any emits are dropped at any point (or panic because of an earlier drop). The wire is never torn: what is on it is a prefix of
a sequence of packages in packages, each carrying the whole frames of one or more of the emitted events, in the order in which their emits got the connection, no event twice; numbered by each layer from its own start. The
rest of it is in the write halves, and what is in the buffer of the outermost layer is whole frames, too, of events after these. -/
theorem C86_wire {s : LState (l :: ls).length} {em rd : List Event} (h : Link.Hist ((Link.DropKind.droppingLayers A l ls).link checks) s em rd)
    (hc : ∀ e ∈ em, (Link.DropKind.droppingLayers A l ls).carries e) :
    ∃ (packages : List (List Event)) (pend : List Event) (all : Bytes), NestedGroups A (l :: ls) 0 packages all ∧ s.wire A <+: all ∧ (∀ g ∈ packages, g ≠ []) ∧
      Frames pend s.w.1.buffer ∧ s.w.1.buffer.length < 1024 ∧ (packages.flatten ++ pend).Sublist em := by
  obtain ⟨groups, pend, gs, left, hi⟩ := layeredDrop_inv A l ls checks h hc
  have hsm : ∀ e ∈ groups.flatten ++ pend, Small e := fun e he => CarryDrop.small (ls := ls) (hc e (hi.sub.subset he))
  obtain ⟨r, -, hw⟩ := hi.good.shape
  refine ⟨groups, pend, _, nestedGroups_packs A l ls groups 0 hi.good.ne (fun e he => hsm e (List.mem_append_left _ he)), ⟨r, hw⟩, fun g hg => (hi.good.ne g hg).1, ?_, ?_, hi.sub⟩
  · rw [hi.good.buf]
    exact frames_framesOf fun e he => hsm e (List.mem_append_right _ he)
  · rw [hi.good.buf]
    exact hi.good.short

/-- Reading packages that carry events each, and then part of one. -/
theorem readLoop_packs {closed : Bool} : ∀ (fuel i : Nat) (gs : List (List Event)) (left : List Event) (r : RState ls.length) (cut : Bytes), (∀ e ∈ left ++ gs.flatten, Small e) → (∀ g ∈ gs, GroupOk A ls g) →
    (left ++ gs.flatten).length < fuel → (cut = [] ∨ ∃ g z, GroupOk A ls g ∧ cut ++ z = (sends A ls).wrap (i + gs.length) (pkg A l (i + gs.length) (framesOf g)) ∧ z ≠ []) →
    (receives A closed ls).idle i r (packs (sends A ls) A l i gs ++ cut) →
    readLoop (source (encryptedR (layersR A ls.length) A)) checks fuel (({ dec := decAt l i, remaining := framesOf left } : ReadStream), r) = (left ++ gs.flatten, if closed then .err (.io .unexpectedEof) else .hang) := by
  intro fuel
  induction fuel with
  | zero => intro i gs left r cut _ _ h; omega
  | succ n ih =>
    intro i gs left r cut hsm hok hf hcut h
    have hok' : ∀ {g}, GroupOk A ls g → ((receives A closed ls).layer A l).ok (framesOf g).length := fun hg => ⟨hg.2.1, hg.2.2.1, receives_ok' A closed ls hg.2.2.2⟩
    have hwr : ∀ i g, ((receives A closed ls).layer A l).wrap i (framesOf g) = (sends A ls).wrap i (pkg A l i (framesOf g)) := fun i g => wraps_same A closed ls _ _
    cases left with
    | cons e left =>
      rw [framesOf_cons, readLoop_step n (read_there (fromBytes_frame_append checks (hsm e (by simp)) _)),
        ih i gs left r cut (fun e' he' => hsm e' (by simp only [List.cons_append, List.mem_cons]; exact .inr he')) hok (by simpa using hf) hcut h]
      rfl
    | nil =>
      cases gs with
      | nil =>
        simp only [packs, List.nil_append] at h
        have hidle : ((receives A closed ls).layer A l).idle i (({ dec := decAt l i, remaining := framesOf [] } : ReadStream), r) cut := ⟨rfl, h⟩
        have hrd : Event.fromAsyncRead (source (encryptedR (layersR A ls.length) A)) checks (({ dec := decAt l i, remaining := framesOf [] } : ReadStream), r) =
            if closed then .err (.io .unexpectedEof) else .hang := by
          rcases hcut with rfl | ⟨g, z, hg, hz, hne⟩
          · exact ((receives A closed ls).layer A l).read_nothing hidle
          · exact (receives A closed ls).read_cut A l (hok' hg) (by rw [hwr]; exact hz) hne hidle
        unfold readLoop
        rw [hrd]
        cases closed <;> rfl
      | cons g gs =>
        have hg := hok g (by simp)
        cases g with
        | nil => exact absurd rfl hg.1
        | cons e g =>
          have hse : Small e := hsm e (by simp)
          simp only [packs, List.append_assoc] at h
          have hidle : ((receives A closed ls).layer A l).idle i (({ dec := decAt l i, remaining := framesOf [] } : ReadStream), r)
              (((receives A closed ls).layer A l).wrap i (framesOf (e :: g)) ++ (packs (sends A ls) A l (i + 1) gs ++ cut)) := ⟨rfl, by rw [hwr]; exact h⟩
          obtain ⟨⟨rs', r'⟩, k1, rest', k2, k3, k4⟩ := (receives A closed ls).read_first A l (checks := checks) (e := e) (t := framesOf g) (hok' hg)
            (by rw [framesOf_cons]; exact fromBytes_frame_append checks hse _)
            (fun h => by have := congrArg List.length h; rw [framesOf_cons, List.length_append] at this; have := frame_pos e; omega) hidle
          cases k2
          dsimp only at k3 k4
          subst k3
          rw [readLoop_step n k1, ih (i + 1) gs g r' cut (fun e' he' => hsm e' (by simp only [List.flatten_cons, List.nil_append, List.cons_append, List.mem_cons]; exact .inr he'))
            (fun g' hg' => hok g' (by simp [hg'])) (by simpa using hf) ?_ k4]
          · rfl
          · rcases hcut with h | ⟨g', z, h1, h2, h3⟩
            · exact .inl h
            · refine .inr ⟨g', z, h1, ?_, h3⟩
              rw [h2, show i + ((e :: g) :: gs).length = i + 1 + gs.length by simp only [List.length_cons]; omega]

/-- A prefix of a sequence of packages is some of them, then part of one. -/
theorem packs_cut : ∀ (gs : List (List Event)) (i : Nat) (b : Bytes), (∀ g ∈ gs, GroupOk A ls g) → b <+: packs (sends A ls) A l i gs →
    ∃ k cut, k ≤ gs.length ∧ b = packs (sends A ls) A l i (gs.take k) ++ cut ∧
      (cut = [] ∨ ∃ g z, GroupOk A ls g ∧ cut ++ z = (sends A ls).wrap (i + (gs.take k).length) (pkg A l (i + (gs.take k).length) (framesOf g)) ∧ z ≠ []) ∧
      (k < gs.length → ¬ packs (sends A ls) A l i (gs.take (k + 1)) <+: b) := by
  intro gs
  induction gs with
  | nil =>
    intro i b _ hb
    exact ⟨0, [], by simp, by simpa [packs] using hb, .inl rfl, by simp⟩
  | cons g gs ih =>
    intro i b hc hb
    simp only [packs] at hb
    rcases Classical.em ((sends A ls).wrap i (pkg A l i (framesOf g)) <+: b) with ⟨b', rfl⟩ | hno
    · have hb' : b' <+: packs (sends A ls) A l (i + 1) gs := by simpa using hb
      obtain ⟨k, cut, h1, h2, h3, h4⟩ := ih (i + 1) b' (fun g' hg' => hc g' (by simp [hg'])) hb'
      refine ⟨k + 1, cut, by simpa using h1, ?_, ?_, ?_⟩
      · simp only [List.take_succ_cons, packs, List.append_assoc]
        rw [h2]
      · rcases h3 with h3 | ⟨g', z, g1, g2, g3⟩
        · exact .inl h3
        · refine .inr ⟨g', z, g1, ?_, g3⟩
          rw [g2, show i + ((g :: gs).take (k + 1)).length = i + 1 + (gs.take k).length by simp only [List.take_succ_cons, List.length_cons]; omega]
      · intro hk
        simp only [List.length_cons, Nat.add_lt_add_iff_right] at hk
        simp only [List.take_succ_cons, packs]
        rw [List.prefix_append_right_inj]
        exact h4 hk
    · refine ⟨0, b, by simp, by simp [packs], ?_, ?_⟩
      · rcases List.prefix_or_prefix_of_prefix hb (List.prefix_append _ _) with ⟨z, hz⟩ | h
        · refine .inr ⟨g, z, hc g (by simp), by simpa using hz, ?_⟩
          rintro rfl
          exact hno (by rw [← hz]; simp)
        · exact absurd h hno
      · intro _ h
        simp only [Nat.zero_add, List.take_succ_cons, List.take_zero, packs, List.append_nil] at h
        exact hno h

/-- **C86, the peer.** Whatever emits have been dropped, at whatever point: a peer with the same layers to which the bytes have come, or a prefix of them, however the socket cuts them, reads the events of the first
packages, all of those that are complete, in the order in which their emits got the connection, each at most once, and then waits, or sees the end of the stream if the socket is closed; it never sees a broken frame or package. -/
theorem C86_peer_reads {s : LState (l :: ls).length} {em rd : List Event} (h : Link.Hist ((Link.DropKind.droppingLayers A l ls).link checks) s em rd)
    (hc : ∀ e ∈ em, (Link.DropKind.droppingLayers A l ls).carries e) (checks' : Bool) (sc : Script) (hsc : sc.bytes <+: s.wire A) (fuel : Nat) (hf : em.length < fuel) :
    ∃ (packages : List (List Event)) (k : Nat) (all done : Bytes), NestedGroups A (l :: ls) 0 packages all ∧ s.wire A <+: all ∧ packages.flatten.Sublist em ∧
      readLoop (source (layersR A (l :: ls).length)) checks' fuel (startR sc (l :: ls)) = ((packages.take k).flatten, if sc.closed then .err (.io .unexpectedEof) else .hang) ∧
      NestedGroups A (l :: ls) 0 (packages.take k) done ∧ done <+: sc.bytes ∧
      (∀ more, k < packages.length → NestedGroups A (l :: ls) 0 (packages.take (k + 1)) more → ¬ more <+: sc.bytes) := by
  obtain ⟨groups, pend, gs, left, hi⟩ := layeredDrop_inv A l ls checks h hc
  have hsub : groups.flatten.Sublist em := (List.sublist_append_left _ _).trans hi.sub
  have hsm : ∀ e ∈ groups.flatten, Small e := fun e he => CarryDrop.small (ls := ls) (hc e (hsub.subset he))
  have htk : ∀ k, ∀ g ∈ groups.take k, GroupOk A ls g := fun k g hg => hi.good.ne g (List.mem_of_mem_take hg)
  have hsub' : ∀ k, (groups.take k).flatten.Sublist groups.flatten := by
    intro k
    conv => rhs; rw [← List.take_append_drop k groups, List.flatten_append]
    exact List.sublist_append_left _ _
  have hsmk : ∀ k, ∀ e ∈ (groups.take k).flatten, Small e := fun k e he => hsm e ((hsub' k).subset he)
  obtain ⟨r, -, hw⟩ := hi.good.shape
  have hpre : s.wire A <+: packs (sends A ls) A l 0 groups := ⟨r, hw⟩
  obtain ⟨k, cut, h1, h2, h3, h4⟩ := packs_cut groups 0 sc.bytes hi.good.ne (hsc.trans hpre)
  refine ⟨groups, k, _, _, nestedGroups_packs A l ls groups 0 hi.good.ne hsm, hpre, hsub, ?_, nestedGroups_packs A l ls (groups.take k) 0 (htk k) (hsmk k), ⟨cut, h2.symm⟩, ?_⟩
  · have hst := receives_start A sc ls
    have hfl : flat sc.chunks = sc.bytes := rfl
    rw [hfl, h2] at hst
    have hlen := ((hsub' k).trans hsub).length_le
    have := readLoop_packs (A := A) (l := l) (checks := checks') fuel 0 (groups.take k) [] _ cut (by simpa using hsmk k) (htk k) (by simp only [List.nil_append]; omega) h3 hst
    exact this
  · intro more hk hm
    rw [nestedGroups_unique hm (nestedGroups_packs A l ls _ 0 (htk (k + 1)) (hsmk (k + 1)))]
    exact h4 hk

/-- **C86, end to end.** What is read from a connection with nested layers, whatever emits have been dropped, is what was emitted, in order; some of it may be missing, nothing is doubled or changed. -/
theorem C86_loses_at_most (A : Aead) (l : Layer) (ls : List Layer) (checks : Bool) :
    ((Link.DropKind.droppingLayers A l ls).link checks).LosesAtMost (Link.DropKind.droppingLayers A l ls).carries :=
  layeredDrops_losesAtMost A l ls checks

/-- **C86, polls.** As long as the socket does not fail, and whatever emits have been dropped before: a poll of the emit that holds the connection returns `Ok`, or is pending with its task registered at the socket, and then bytes
have gone to the wire if the socket was ready; or it panics, and this only if the flush of an earlier emit that was dropped is not finished yet and there are 1024 bytes in the buffer together with the new frame. It
gives no error. -/
theorem C86_poll {s : LState (l :: ls).length} {em rd : List Event} (h : Link.Hist ((Link.DropKind.droppingLayers A l ls).link checks) s em rd)
    (hc : ∀ e ∈ em, (Link.DropKind.droppingLayers A l ls).carries e) (st : Stage) (hst : s.cur = some st) (as : List IoAns) (hfail : ∀ er, .fail er ∉ as) (hzero : .ready 0 ∉ as) :
    ∃ st' w', let p := pollEmit (layersW A (l :: ls).length) ((layersW A (l :: ls).length).setBase s.w { answers := as, wire := s.wire A }) st
      p = (.ready (.ok ()), st', w') ∨
      (p = (.pending true, st', w') ∧ ((∃ n as', as = .ready (n + 1) :: as') → (s.wire A).length < ((layersW A (l :: ls).length).base w').wire.length)) ∨
      (p = (.panic, st', w') ∧ s.w.1.futFlush ≠ none ∧ ∃ em0 e, em = em0 ++ [e] ∧ 1024 ≤ s.w.1.buffer.length + frameSize e) := by
  obtain ⟨groups, pend, gs, left, hi⟩ := layeredDrop_inv A l ls checks h hc
  obtain ⟨em0, e, h1, h2, -⟩ := hi.held st hst
  have hge : CarryDrop ls e := hc e (by rw [h1]; simp)
  have hfine : ¬ Bad as := by
    rintro ⟨a, ha, g1, g2⟩
    cases a with
    | pending => exact g1 rfl
    | fail x => exact hfail x ha
    | ready n =>
      cases n with
      | zero => exact hzero ha
      | succ n => exact g2 n rfl
  have k3 := drop_emit (e := e) (st := st) (hi.good.set as) h2 (by dsimp only; rw [(sends A ls).base_set]; exact hfine) (frame_pos e) (hge.ok l)
  dsimp only at k3
  rw [(sends A ls).base_set] at k3
  have k3 : DEmit (S := sends A ls) (A := A) (l := l) { answers := as, wire := s.wire A } (Panics e st s.w.1) s.w.1.futFlush (took e st s.w.1 groups pend).1 (took e st s.w.1 groups pend).2 e
    (pollEmit (layersW A (l :: ls).length) ((layersW A (l :: ls).length).setBase s.w { answers := as, wire := s.wire A }) st) := k3
  generalize hx : pollEmit (layersW A (l :: ls).length) ((layersW A (l :: ls).length).setBase s.w { answers := as, wire := s.wire A }) st = x
  have k3 := hx ▸ k3
  cases k3 with
  | @pending st' s' g1 g2 g3 _ g4 => exact ⟨st', s', .inr (.inl ⟨rfl, fun hr => g4.2.resolve_right fun hn => hn hr⟩)⟩
  | @ready st' s' g1 => exact ⟨st', s', .inl rfl⟩
  | @panic st' s' g1 _ _ g2 _ => exact ⟨st', s', .inr (.inr ⟨rfl, g2.2.1, em0, e, h1, by have := g2.2.2; unfold Big at this; rw [length_frame] at this; exact this⟩)⟩

theorem length_wrapL : ∀ (ls : List Layer) (i : Nat) {f : Bytes}, okL ls f.length → (wrapL A ls i f).length = f.length + 20 * ls.length := by
  intro ls
  induction ls with
  | nil => intro i f _; simp [wrapL]
  | cons l ls ih =>
    intro i f h
    have hl := length_pkg A l i h.2.1
    simp only [wrapL, List.length_cons]
    rw [ih i (by rw [hl]; exact h.2.2), hl]
    omega

/-- The bytes of the frames of these events and of one package in each layer for each. -/
def cost (n : Nat) (es : List Event) : Nat := (es.map fun e => frameSize e + 20 * n).sum

theorem cost_sublist {n : Nat} {a b : List Event} (h : a.Sublist b) : cost n a ≤ cost n b := by
  unfold cost
  induction h with
  | slnil => simp
  | cons x h ih => simp only [List.map_cons, List.sum_cons]; omega
  | cons_cons x h ih => simp only [List.map_cons, List.sum_cons]; omega

theorem length_framesOf : ∀ (es : List Event), (framesOf es).length = (es.map frameSize).sum := by
  intro es
  induction es with
  | nil => rfl
  | cons e es ih => rw [framesOf_cons, List.length_append, ih, length_frame]; simp

theorem length_packs : ∀ (gs : List (List Event)) (i : Nat), (∀ g ∈ gs, GroupOk A ls g) → (packs (sends A ls) A l i gs).length ≤ cost (l :: ls).length gs.flatten := by
  intro gs
  induction gs with
  | nil => intro i _; simp [packs]
  | cons g gs ih =>
    intro i h
    obtain ⟨hne, h1, h2, h3⟩ := h g (by simp)
    have hl := length_pkg A l i h2
    have := ih (i + 1) fun g' hg' => h g' (by simp [hg'])
    have hw : ((sends A ls).wrap i (pkg A l i (framesOf g))).length = (framesOf g).length + 20 * (l :: ls).length := by
      rw [sends_wrap, length_wrapL ls i (by rw [hl]; exact okL_of_sends A ls h3), hl, List.length_cons]
      omega
    have hg : (framesOf g).length + 20 * (l :: ls).length ≤ cost (l :: ls).length g := by
      rw [length_framesOf]
      have : ∀ (n : Nat) (es : List Event), cost n es = (es.map frameSize).sum + es.length * (20 * n) := by
        intro n es
        unfold cost
        induction es with
        | nil => simp
        | cons e es ih => simp only [List.map_cons, List.sum_cons, ih, List.length_cons, Nat.add_mul]; omega
      rw [this (l :: ls).length]
      have := Nat.mul_le_mul_right (20 * (l :: ls).length) (List.length_pos_iff.2 hne)
      omega
    simp only [packs, List.length_append, List.flatten_cons]
    have hca : cost (l :: ls).length (g ++ gs.flatten) = cost (l :: ls).length g + cost (l :: ls).length gs.flatten := by unfold cost; simp
    rw [hca, hw]
    omega

/-- **C86, bytes.** However emits are dropped, there are never more bytes on the wire than the frames of all emitted events and 20 bytes for each of them in each layer. -/
theorem C86_bytes {s : LState (l :: ls).length} {em rd : List Event} (h : Link.Hist ((Link.DropKind.droppingLayers A l ls).link checks) s em rd)
    (hc : ∀ e ∈ em, (Link.DropKind.droppingLayers A l ls).carries e) : (s.wire A).length ≤ (em.map fun e => frameSize e + 20 * (l :: ls).length).sum := by
  obtain ⟨groups, pend, gs, left, hi⟩ := layeredDrop_inv A l ls checks h hc
  obtain ⟨r, -, hw⟩ := hi.good.shape
  have h1 := length_packs (A := A) (l := l) (ls := ls) groups 0 hi.good.ne
  have h2 := cost_sublist (n := (l :: ls).length) ((List.sublist_append_left _ _).trans hi.sub)
  have h3 := congrArg List.length hw
  rw [List.length_append] at h3
  have : (s.wire A).length = ((layersW A ls.length).base s.w.2).wire.length := rfl
  unfold cost at h1 h2
  omega

/-- **C86, an emit comes to its end.** Whatever emits have been dropped: if the emit that holds the connection is polled again and again, each time the socket being ready at first, then it is over (it has returned `Ok`, or it has
panicked) at the latest after as many polls as bytes could still go to the wire. -/
theorem C86_finishes {s : LState (l :: ls).length} {em rd : List Event} (h : Link.Hist ((Link.DropKind.droppingLayers A l ls).link checks) s em rd)
    (hc : ∀ e ∈ em, (Link.DropKind.droppingLayers A l ls).carries e) (polls : List (List IoAns))
    (hfine : ∀ as ∈ polls, (∀ er, .fail er ∉ as) ∧ .ready 0 ∉ as ∧ ∃ n as', as = .ready (n + 1) :: as')
    (hlong : (em.map fun e => frameSize e + 20 * (l :: ls).length).sum < (s.wire A).length + polls.length) :
    ∃ k s', ((Link.DropKind.droppingLayers A l ls).link checks).steps s ((polls.take k).map .poll) = some s' ∧ s'.cur = none := by
  induction polls generalizing s with
  | nil =>
    have := C86_bytes h hc
    simp only [List.length_nil] at hlong
    omega
  | cons as polls ih =>
    cases hcur : s.cur with
    | none => exact ⟨0, s, rfl, hcur⟩
    | some st =>
      obtain ⟨f1, f2, f3⟩ := hfine as (by simp)
      have hstep : ∀ st' w' r, pollEmit (layersW A (l :: ls).length) ((layersW A (l :: ls).length).setBase s.w { answers := as, wire := s.wire A }) st = (r, st', w') →
          ((Link.DropKind.droppingLayers A l ls).link checks).step s (.poll as) =
            some (match r with | .pending _ => { s with w := w', cur := some st' } | _ => { s with w := w', cur := none }) := by
        intro st' w' r hp
        have hfa : Link.fineAns as = true := by
          simp only [Link.fineAns, List.all_eq_true]
          intro a ha
          cases a with
          | pending => rfl
          | fail x => exact absurd ha (f1 x)
          | ready n =>
            cases n with
            | zero => exact absurd ha f2
            | succ n => simp
        show dropStep A s (.poll as) = _
        simp only [dropStep, hcur, hfa, if_true]
        have hp' : pollEmit (layersW A (l :: ls).length) ((layersW A (l :: ls).length).setBase s.w { (layersW A (l :: ls).length).base s.w with answers := as }) st = (r, st', w') := hp
        rw [hp']
        cases r <;> rfl
      obtain ⟨st', w', hp⟩ := C86_poll h hc st hcur as f1 f2
      dsimp only at hp
      rcases hp with hp | ⟨hp, hgrow⟩ | ⟨hp, -⟩
      · have hs := hstep st' w' _ hp
        exact ⟨1, _, (congrArg (Option.bind · _) hs).trans rfl, rfl⟩
      · have hs := hstep st' w' _ hp
        dsimp only at hs
        obtain ⟨k, s', k1, k2⟩ := ih (.step (.poll as) h hs) (fun as ha => hfine as (by simp [ha])) (by
          have : (LState.wire A { s with w := w', cur := some st' }).length = ((layersW A (l :: ls).length).base w').wire.length := rfl
          have := hgrow f3
          have : (as :: polls).length = polls.length + 1 := rfl
          omega)
        exact ⟨k + 1, s', (congrArg (Option.bind · _) hs).trans k1, k2⟩
      · have hs := hstep st' w' _ hp
        exact ⟨1, _, (congrArg (Option.bind · _) hs).trans rfl, rfl⟩

/-- **C86, the connection is released.** Emits are not locked out by a dropped one: as soon as the emit that holds the connection is dropped the next one can get it; the drop itself writes nothing. -/
theorem C86_released (s : LState (l :: ls).length) (st : Stage) (hst : s.cur = some st) (e : Event) :
    ∃ s' s'', ((Link.DropKind.droppingLayers A l ls).link checks).step s .drop = some s' ∧ ((Link.DropKind.droppingLayers A l ls).link checks).emit s' e = some s'' ∧ s''.cur.isSome ∧ s''.wire A = s.wire A := by
  obtain ⟨w, cur, sent, r⟩ := s
  cases hst
  exact ⟨_, _, rfl, rfl, rfl, rfl⟩

/-- **C86, nonces.** Also if emits are dropped: each layer encrypts at most one package for each emit, only with its own key, and package number `j` with the nonce for the number `j` after the packages it had sent
before; so no nonce occurs twice among 2^64 packages. -/
theorem C86_nonces {s : LState (l :: ls).length} {em rd : List Event} (h : Link.Hist ((Link.DropKind.droppingLayers A l ls).link checks) s em rd)
    (hc : ∀ e ∈ em, (Link.DropKind.droppingLayers A l ls).carries e) (k : Nat) (L : Layer) (hk : (l :: ls)[k]? = some L) :
    ∃ new, (logs (l :: ls).length s.w)[k]? = some (L.log ++ new) ∧ new.length ≤ em.length ∧
      (∀ (j : Nat) (x : Encryption), new[j]? = some x → x.key = L.key ∧ Nonce (L.start + j) x.nonce) ∧
      (new.length ≤ 2 ^ 64 → (new.map Encryption.nonce).Nodup) := by
  obtain ⟨groups, pend, gs, left, hi⟩ := layeredDrop_inv A l ls checks h hc
  obtain ⟨hi1, hi2, hi3⟩ := logged_sends A ls
  have hlen : groups.length ≤ em.length := by
    have h1 := hi.sub.length_le
    rw [List.length_append] at h1
    have h2 : ∀ gs : List (List Event), (∀ g ∈ gs, g ≠ []) → gs.length ≤ gs.flatten.length := by
      intro gs
      induction gs with
      | nil => simp
      | cons g gs ih =>
        intro h
        have := ih fun x hx => h x (by simp [hx])
        have := List.length_pos_iff.2 (h g (by simp))
        simp only [List.flatten_cons, List.length_append, List.length_cons]
        omega
    have := h2 groups fun g hg => (hi.good.ne g hg).1
    omega
  have key : ∃ j, LoggedAt 0 j (l :: ls) s.w ∧ j ≤ groups.length := by
    obtain ⟨⟨ws, t⟩, cur, sent, r⟩ := s
    obtain ⟨r0, hs, -⟩ := hi.good.shape
    dsimp only at hs
    cases hs with
    | idle g1 g2 => exact ⟨_, ⟨⟨_, Nat.zero_le _, Nat.le_refl _, g1⟩, loggedAt_mono (Nat.zero_le _) (Nat.le_refl _) (hi1 g2)⟩, Nat.le_refl _⟩
    | writing g1 g2 => exact ⟨_, ⟨⟨_, Nat.zero_le _, Nat.le_refl _, g1⟩, loggedAt_mono (Nat.zero_le _) (Nat.le_refl _) (hi2 g2)⟩, by simp⟩
    | flushWriting g1 g2 => exact ⟨_, ⟨⟨_, Nat.zero_le _, Nat.le_refl _, g1⟩, loggedAt_mono (Nat.zero_le _) (Nat.le_refl _) (hi2 g2)⟩, by simp⟩
    | flushing g1 g2 => exact ⟨_, ⟨⟨_, Nat.zero_le _, Nat.le_refl _, g1⟩, loggedAt_mono (Nat.zero_le _) (Nat.le_refl _) (hi3 g2)⟩, by simp⟩
  obtain ⟨j, g1, g2⟩ := key
  obtain ⟨lg, m, f1, f2, f3, new, rfl, rfl, f6⟩ := loggedAt_logs g1 k L hk
  refine ⟨new, f1, by omega, fun j x hx => ?_, fun hn => ?_⟩
  · obtain ⟨k1, k2⟩ := f6 j x hx
    exact ⟨k1, k2 ▸ nonce_spec _⟩
  · rw [List.Nodup, List.pairwise_iff_getElem]
    intro a b ha hb hab heq
    rw [List.length_map] at ha hb
    simp only [List.getElem_map] at heq
    rw [(f6 a _ (List.getElem?_eq_getElem ha)).2, (f6 b _ (List.getElem?_eq_getElem hb)).2] at heq
    have := congrArg UInt64.toNat (nonceFromNumber_inj heq)
    simp only [UInt64.toNat_ofNat'] at this
    omega

end

/-! ### Examples -/

/-- Two layers; the inner one has carried a key exchange. -/
abbrev demoDrops : Link.DropKind := .droppingLayers toyAead { key := [1] } [{ key := [2], start := 2 }]

/-- Steps, an emit, or a read. -/
inductive DropLinkOp where
  | step (o : Link.DropOp)
  | emit (e : Event)
  | read

def dropRun (s : LState 2) : List DropLinkOp → Option (LState 2 × List Event × List Event)
  | [] => some (s, [], [])
  | .step o :: os => ((demoDrops.link true).step s o).bind fun s => dropRun s os
  | .emit e :: os => ((demoDrops.link true).emit s e).bind fun s => (dropRun s os).map fun (s, em, rd) => (s, e :: em, rd)
  | .read :: os => ((demoDrops.link true).read s).bind fun (e, s) => (dropRun s os).map fun (s, em, rd) => (s, em, e :: rd)

theorem dropRun_hist : ∀ (os : List DropLinkOp) {s s' : LState 2} {em em' rd rd' : List Event}, Link.Hist (demoDrops.link true) s em rd → dropRun s os = some (s', em', rd') →
    Link.Hist (demoDrops.link true) s' (em ++ em') (rd ++ rd') := by
  intro os
  induction os with
  | nil => intro s s' em em' rd rd' h hr; cases hr; simpa using h
  | cons o os ih =>
    intro s s' em em' rd rd' h hr
    cases o with
    | step o =>
      obtain ⟨s1, h1, h2⟩ := Option.bind_eq_some_iff.1 hr
      exact ih (.step o h h1) h2
    | emit e =>
      obtain ⟨s1, h1, h2⟩ := Option.bind_eq_some_iff.1 hr
      obtain ⟨⟨s2, em2, rd2⟩, h3, h4⟩ := Option.map_eq_some_iff.1 h2
      cases h4
      have := ih (.emit e h h1) h3
      simpa using this
    | read =>
      obtain ⟨⟨e, s1⟩, h1, h2⟩ := Option.bind_eq_some_iff.1 hr
      obtain ⟨⟨s2, em2, rd2⟩, h3, h4⟩ := Option.map_eq_some_iff.1 h2
      cases h4
      have := ih (.read e h h1) h3
      simpa using this

def ev3 : Event := Event.new 9 none "c" [3] none .initiator

/-- The first emit is dropped before it is polled, the second one in the middle of its package; the flush of the third one finishes that package, the frame of the third stays in the buffer and goes out with the
fourth. -/
def opsDrops : List DropLinkOp := [.emit ev2, .step .drop, .emit ev1, .step (.poll [.ready 30, .pending]), .step .drop, .emit ev2, .step (.poll [.ready 1000, .ready 1]), .emit ev3, .step (.poll [.ready 40, .pending]),
  .step (.deliver 24), .step .wait, .step (.deliver 44), .read, .step (.poll [.ready 1000, .ready 1]), .step (.deliver 99), .step (.deliver 38), .read, .read]

/-- The hypotheses of C86 can be met: of four emits two were dropped, three events have been read. -/
example : ∃ s, Link.Hist (demoDrops.link true) s [ev2, ev1, ev2, ev3] [ev1, ev2, ev3] ∧ (∀ e ∈ [ev2, ev1, ev2, ev3], demoDrops.carries e) ∧ (s.wire toyAead).length = 209 := by
  have : ((dropRun (demoDrops.link true).init opsDrops).map fun (s, em, rd) => decide (em = [ev2, ev1, ev2, ev3] ∧ rd = [ev1, ev2, ev3] ∧ (s.wire toyAead).length = 209)) = some true := by decide +kernel
  obtain ⟨⟨s, em, rd⟩, h1, h2⟩ := Option.map_eq_some_iff.1 this
  simp only [decide_eq_true_eq] at h2
  obtain ⟨rfl, rfl, h3⟩ := h2
  have := dropRun_hist opsDrops .init h1
  refine ⟨s, by simpa using this, ?_, h3⟩
  intro e he
  simp only [List.mem_cons, List.not_mem_nil, or_false] at he
  rcases he with rfl | rfl | rfl | rfl <;> exact ⟨by decide, by decide⟩

/-- The hypotheses of C86 about polls can be met: an emit holds the connection after two drops. -/
example : ∃ s st, Link.Hist (demoDrops.link true) s [ev2, ev1, ev2] [] ∧ s.cur = some st ∧ (s.wire toyAead).length = 30 := by
  have : ((dropRun (demoDrops.link true).init (opsDrops.take 6)).map fun (s, em, rd) => decide (em = [ev2, ev1, ev2] ∧ rd = [] ∧ s.cur.isSome ∧ (s.wire toyAead).length = 30)) = some true := by decide +kernel
  obtain ⟨⟨s, em, rd⟩, h1, h2⟩ := Option.map_eq_some_iff.1 this
  simp only [decide_eq_true_eq] at h2
  obtain ⟨rfl, rfl, h3, h4⟩ := h2
  obtain ⟨st, hst⟩ := Option.isSome_iff_exists.1 h3
  exact ⟨s, st, by simpa using dropRun_hist _ .init h1, hst, h4⟩

/-- An event whose frame is more than a buffer. -/
def evBig : Event := Event.new 10 none "big" (List.replicate 1000 5) none .initiator

/-- The emit of the big event is dropped in the middle of its package. -/
def opsLost : List DropLinkOp := [.emit evBig, .step (.poll [.ready 30, .pending]), .step .drop, .emit ev1, .step (.poll [.ready 5000, .ready 1]), .emit ev2, .step (.poll [.ready 1000, .ready 1]),
  .step (.deliver 1069), .step (.deliver 109), .read, .read]

set_option maxRecDepth 10000 in
/-- Events do get lost: the poll of the second emit only finishes the package of the dropped one, its own frame is gone; the peer reads the first and the third event. -/
example : ∃ s, Link.Hist (demoDrops.link true) s [evBig, ev1, ev2] [evBig, ev2] ∧ s.cur = none := by
  have : ((dropRun (demoDrops.link true).init opsLost).map fun (s, em, rd) => decide (em = [evBig, ev1, ev2] ∧ rd = [evBig, ev2] ∧ s.cur.isNone)) = some true := by decide +kernel
  obtain ⟨⟨s, em, rd⟩, h1, h2⟩ := Option.map_eq_some_iff.1 this
  simp only [decide_eq_true_eq] at h2
  obtain ⟨rfl, rfl, h3⟩ := h2
  exact ⟨s, by simpa using dropRun_hist _ .init h1, Option.isNone_iff_eq_none.1 h3⟩

/-- The emit of a small event is dropped in its flush; the next one has a big event. -/
def opsPanic : List DropLinkOp := [.emit ev1, .step (.poll [.ready 30, .pending]), .step .drop, .emit evBig]

/-- Emits do panic: the flush of the first emit, which was dropped, is not finished. -/
example : ∃ s st, Link.Hist (demoDrops.link true) s [ev1, evBig] [] ∧ s.cur = some st ∧
    (pollEmit (layersW toyAead 2) ((layersW toyAead 2).setBase s.w { answers := [.ready 5000], wire := s.wire toyAead }) st).1 = .panic := by
  have : ((dropRun (demoDrops.link true).init opsPanic).map fun (s, em, rd) => decide (em = [ev1, evBig] ∧ rd = []) && match s.cur with
      | some st => match (pollEmit (layersW toyAead 2) ((layersW toyAead 2).setBase s.w { answers := [.ready 5000], wire := s.wire toyAead }) st).1 with | .panic => true | _ => false
      | none => false) = some true := by decide +kernel
  obtain ⟨⟨s, em, rd⟩, h1, h2⟩ := Option.map_eq_some_iff.1 this
  simp only [Bool.and_eq_true, decide_eq_true_eq] at h2
  obtain ⟨⟨rfl, rfl⟩, h3⟩ := h2
  cases hst : s.cur with
  | none => rw [hst] at h3; cases h3
  | some st =>
    refine ⟨s, st, by simpa using dropRun_hist _ .init h1, hst, ?_⟩
    rw [hst] at h3
    dsimp only at h3
    split at h3
    · assumption
    · cases h3

end Bromine.Props
