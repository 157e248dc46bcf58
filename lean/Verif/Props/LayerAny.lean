import Verif.Lemmas.AnyLedger
import Verif.Props.Ledger
import Verif.Props.LayerFail
/-
C89: connections with encrypted layers on which emits are dropped and emits fail.
-/
namespace Bromine.Props
open Bromine Bromine.Spec Bromine.CryptIO Bromine.Layers

section
variable {A : Aead} {l : Layer} {ls : List Layer}

theorem packageOf_whole {i : Nat} {g : List Event} (h : GroupOk A ls g) (hs : ∀ e ∈ g, Small e) : PackageOf A l ls i g (whole (sends A ls) A l i g) := by
  refine ⟨_, frames_framesOf hs, ?_⟩
  show Nested A (l :: ls) i (framesOf g) ((sends A ls).wrap i (pkg A l i (framesOf g)))
  refine ⟨_, package_pkg A l i h.2.2.1, ?_⟩
  rw [sends_wrap]
  exact nested_wrapL A i ls (by rw [length_pkg A l i h.2.2.1]; exact okL_of_sends A ls h.2.2.2)

theorem packageOf_unique {i : Nat} {g : List Event} {a b : Bytes} (h : PackageOf A l ls i g a) (h' : PackageOf A l ls i g b) : a = b := by
  obtain ⟨p, h1, h2⟩ := h
  obtain ⟨p', g1, g2⟩ := h'
  have := frames_unique h1 g1
  subst this
  exact nested_unique h2 g2

/-- **C89, a ledger can always be kept.** Whatever the callers and the transport do, there is a ledger of it (and a ledger is only ever of something that can happen). -/
theorem C89_kept (s : AState (l :: ls).length) (em : List Event) :
    (∃ L, BookedAll A l ls s em L) ↔ ∃ ops, anySteps A l ls (anyStart (l :: ls)) ops = some s ∧ theEmits ops = em := by
  have snoc : ∀ (ops : List AnyOp) (o : AnyOp) (s0 s s' : AState (l :: ls).length), anySteps A l ls s0 ops = some s → anyStep A s o = some s' → anySteps A l ls s0 (ops ++ [o]) = some s' := by
    intro ops o
    induction ops with
    | nil => intro s0 s s' h h'; cases h; simp [anySteps, h']
    | cons o' ops ih =>
      intro s0 s s' h h'
      simp only [anySteps, List.cons_append] at h ⊢
      cases hs : anyStep A s0 o' with
      | none => rw [hs] at h; cases h
      | some s1 => rw [hs] at h; exact ih s1 s s' h h'
  have emits_append : ∀ a b : List AnyOp, theEmits (a ++ b) = theEmits a ++ theEmits b := by
    intro a b
    induction a with
    | nil => rfl
    | cons o a ih => cases o <;> simp [theEmits, ih]
  constructor
  · rintro ⟨L, h⟩
    induction h with
    | start => exact ⟨[], rfl, rfl⟩
    | emit e _ hs ih =>
      obtain ⟨ops, h1, rfl⟩ := ih
      exact ⟨_, snoc _ _ _ _ _ h1 hs, by rw [emits_append]; rfl⟩
    | poll as _ _ hs ih =>
      obtain ⟨ops, h1, rfl⟩ := ih
      exact ⟨_, snoc _ _ _ _ _ h1 hs, by rw [emits_append]; simp [theEmits]⟩
    | drop _ hs ih =>
      obtain ⟨ops, h1, rfl⟩ := ih
      exact ⟨_, snoc _ _ _ _ _ h1 hs, by rw [emits_append]; simp [theEmits]⟩
  · rintro ⟨ops, h, rfl⟩
    have key : ∀ (ops : List AnyOp) (s : AState (l :: ls).length) (em : List Event) (L : FLedger), BookedAll A l ls s em L → ∀ s', anySteps A l ls s ops = some s' → ∃ L', BookedAll A l ls s' (em ++ theEmits ops) L' := by
      intro ops
      induction ops with
      | nil => intro s em L h s' hs; cases hs; exact ⟨L, by simpa [theEmits] using h⟩
      | cons o ops ih =>
        intro s em L h s' hs
        simp only [anySteps] at hs
        cases h1 : anyStep A s o with
        | none => rw [h1] at hs; cases hs
        | some s1 =>
          rw [h1] at hs
          cases o with
          | emit e => simpa [theEmits] using ih s1 _ _ (.emit e h h1) s' hs
          | drop => exact ih s1 _ _ (.drop h h1) s' hs
          | poll as =>
            cases hc : s.cur with
            | none => simp [anyStep, hc] at h1
            | some x => exact ih s1 _ _ (.poll as h hc h1) s' hs
    exact key ops _ [] {} .start s h

variable {s : AState (l :: ls).length} {em : List Event} {L : FLedger}

theorem any_parts (hi : AInv A l ls s em L) : ∃ parts : List Bytes, parts.length = L.led.sent.length ∧ s.wire A = parts.flatten ∧
    ∀ i g p, L.led.sent[i]? = some g → parts[i]? = some p → p <+: whole (sends A ls) A l i g ∧ (i ∉ L.broken → L.led.unfinished = none ∨ i + 1 < L.led.sent.length → p = whole (sends A ls) A l i g) := by
  have hw : s.wire A = ((layersW A ls.length).base s.w.2).wire := rfl
  obtain ⟨⟨ws, t⟩, cur⟩ := s
  have hleft := hi.left
  have hsh := hi.good.shape
  generalize L.led.sent = sent at hsh ⊢
  generalize L.led.unfinished = u at hleft ⊢
  dsimp only at hsh hleft hw
  rw [hw]
  clear hw hi
  have mid : ∀ {gs g r}, Mid (sends A ls) A l L.broken gs g ((layersW A ls.length).base t).wire r → u ≠ none → ∃ parts : List Bytes, parts.length = (gs ++ [g]).length ∧ ((layersW A ls.length).base t).wire = parts.flatten ∧
      ∀ i g' p, (gs ++ [g])[i]? = some g' → parts[i]? = some p → p <+: whole (sends A ls) A l i g' ∧ (i ∉ L.broken → u = none ∨ i + 1 < (gs ++ [g]).length → p = whole (sends A ls) A l i g') := by
    intro gs g r hm hu
    obtain ⟨parts, part, h1, h2, h3⟩ := hm
    refine ⟨parts ++ [part], by simp [h1.1], by simp [h2], fun i g' p hg hp => ?_⟩
    by_cases hlt : i < gs.length
    · rw [List.getElem?_append_left hlt] at hg
      rw [List.getElem?_append_left (by rw [h1.1]; exact hlt)] at hp
      obtain ⟨k1, k2⟩ := h1.2 i g' p hg hp
      exact ⟨k1, fun hn _ => k2 hn⟩
    · have hlt' := (List.getElem?_eq_some_iff.1 hg).1
      simp only [List.length_append, List.length_singleton] at hlt' ⊢
      obtain rfl : i = gs.length := by omega
      rw [List.getElem?_concat_length] at hg
      rw [← h1.1, List.getElem?_concat_length] at hp
      cases hg
      cases hp
      refine ⟨⟨r, h3⟩, fun _ h => ?_⟩
      rcases h with h | h
      · exact absurd h hu
      · omega
  cases hsh with
  | idle g1 g2 g3 g4 => exact ⟨_, g3.1, g4, fun i g p hg hp => ⟨(g3.2 i g p hg hp).1, fun hn _ => (g3.2 i g p hg hp).2 hn⟩⟩
  | writing g1 g2 g3 => exact mid g3 (by rintro rfl; exact absurd hleft.1 (by simp))
  | flushWriting g1 g2 g3 => exact mid g3 (by rintro rfl; exact absurd hleft.2 (by simp))
  | flushing g1 g2 g3 => exact mid g3 (by rintro rfl; exact absurd hleft.2 (by simp))

theorem any_small (h : BookedAll A l ls s em L) (hc : ∀ e ∈ em, (Link.DropKind.droppingLayers A l ls).carries e) : ∀ e ∈ L.led.sent.flatten ++ L.led.waiting, Small e :=
  fun e he => CarryDrop.small (ls := ls) (hc e ((any_inv h hc).sub.subset (List.mem_append_left _ he)))

/-- **C89, the wire.** Emits are dropped at any point, and polls fail at any point, in any order. On the wire are the packages of the ledger, one after the other, each with the frames of its events, in packages of the other layers,
with consecutive numbers; of each at least a beginning, and all of it unless a poll has failed while it was the last (or it is the last one and unfinished). In the buffer are the frames of the events that wait, less than 1024 bytes. -/
theorem C89_wire (h : BookedAll A l ls s em L) (hc : ∀ e ∈ em, (Link.DropKind.droppingLayers A l ls).carries e) :
    (∃ parts : List Bytes, parts.length = L.led.sent.length ∧ s.wire A = parts.flatten ∧ ∀ (i : Nat) (g : List Event) (p : Bytes), L.led.sent[i]? = some g → parts[i]? = some p →
      g ≠ [] ∧ ∃ pkg, PackageOf A l ls i g pkg ∧ p <+: pkg ∧ (i ∉ L.broken → L.led.unfinished = none ∨ i + 1 < L.led.sent.length → p = pkg)) ∧
    Frames L.led.waiting s.w.1.buffer ∧ s.w.1.buffer.length < 1024 := by
  have hi := any_inv h hc
  have hsm := any_small h hc
  obtain ⟨parts, h1, h2, h3⟩ := any_parts hi
  refine ⟨⟨parts, h1, h2, fun i g p hg hp => ?_⟩, ?_, ?_⟩
  · have hgm := List.mem_of_getElem? hg
    exact ⟨(hi.good.ne g hgm).1, _, packageOf_whole (hi.good.ne g hgm) fun e he => hsm e (List.mem_append_left _ (List.mem_flatten_of_mem hgm he)), h3 i g p hg hp⟩
  · rw [hi.good.buf]
    exact frames_framesOf fun e he => hsm e (List.mem_append_right _ he)
  · rw [hi.good.buf]
    exact hi.good.short

/-- **C89, the ledger is complete.** Every event whose emit has got the connection is in the ledger once: it is sent, it waits, it is lost, or its emit has not been polled yet. What is sent or waits is in the order of the
emits. -/
theorem C89_account (h : BookedAll A l ls s em L) (hc : ∀ e ∈ em, (Link.DropKind.droppingLayers A l ls).carries e) :
    em.Perm (L.led.sent.flatten ++ L.led.waiting ++ L.led.lost ++ L.led.fresh) ∧ (L.led.sent.flatten ++ L.led.waiting).Sublist em ∧ s.cur.map Prod.fst = L.led.cur.map Prod.fst ∧
    (L.led.unfinished = some .write → L.led.waiting = []) := by
  have hi := any_inv h hc
  refine ⟨hi.all, (List.sublist_append_left _ _).trans hi.sub, hi.same, fun hu => ?_⟩
  have := hi.left
  rw [hu] at this
  exact (hi.good.in_write this).2

/-- **C89, polls.** A poll of the emit that has the connection, whatever has been dropped and has failed before, adds to the wire. It is pending, and then bytes have gone if the socket was ready; or the emit is over: with `Ok`; or
with an error that is among the answers of the socket to this poll (`WriteZero` if it took nothing); or with a panic, and this exactly if it is the first poll of the emit, the flush of a dropped emit is unfinished and the frames
that wait and the new one are 1024 bytes or more. Then nothing is written. -/
theorem C89_poll (h : BookedAll A l ls s em L) (hc : ∀ e ∈ em, (Link.DropKind.droppingLayers A l ls).carries e) {e : Event} {st : Stage} (hcur : s.cur = some (e, st)) (as : List IoAns) :
    ∃ s', anyStep A s (.poll as) = some s' ∧ s.wire A <+: s'.wire A ∧
      ((∃ st', (s.polled A st as).1 = .pending true ∧ s'.cur = some (e, st') ∧ ((∃ n more, as = .ready (n + 1) :: more) → (s.wire A).length < (s'.wire A).length)) ∨
       (s'.cur = none ∧ ((s.polled A st as).1 = .ready (.ok ()) ∨ (∃ err, (s.polled A st as).1 = .ready (.error err) ∧ (.fail err ∈ as ∨ (err = .writeZero ∧ .ready 0 ∈ as))) ∨
         ((s.polled A st as).1 = .panic ∧ s'.wire A = s.wire A)))) ∧
      ((s.polled A st as).1 = .panic ↔ L.led.cur = some (e, false) ∧ L.led.unfinished = some .flush ∧ 1024 ≤ (L.led.waiting.map frameSize).sum + frameSize e) := by
  obtain ⟨s', h1, -, h3, h4, h5⟩ := any_poll as (any_inv h hc) hc hcur
  refine ⟨s', h1, h3, ?_⟩
  have hs' := h1
  simp only [anyStep, hcur] at hs'
  generalize s.polled A st as = x at hs' h4 h5 ⊢
  obtain ⟨r, st1, w⟩ := x
  have pend : ∀ {b : Bool}, r = .pending b → s' = { w := w, cur := some (e, st1) } := by
    rintro b rfl
    exact (Option.some.inj hs').symm
  cases r with
  | pending b =>
    cases h5 b rfl
    have hp := pend rfl
    subst hp
    cases st1 with
    | writing rem =>
      cases h4 with
      | inWrite _ k2 k3 => exact ⟨.inl ⟨_, rfl, rfl, k3⟩, ⟨(fun h => by cases h), fun h => absurd h k2⟩⟩
    | flushing =>
      cases h4 with
      | inFlush _ k2 k3 => exact ⟨.inl ⟨_, rfl, rfl, k3⟩, ⟨(fun h => by cases h), fun h => absurd h k2⟩⟩
  | ready r =>
    cases r with
    | ok u =>
      cases h4 with
      | ok k1 k2 => exact ⟨.inr ⟨k1, .inl rfl⟩, ⟨(fun h => by cases h), fun h => absurd h k2⟩⟩
    | error err =>
      cases h4 with
      | failed k1 k2 k3 => exact ⟨.inr ⟨k1, .inr (.inl ⟨err, rfl, k3⟩)⟩, ⟨(fun h => by cases h), fun h => absurd h k2⟩⟩
  | panic =>
    cases h4 with
    | panicked k1 k2 k3 => exact ⟨.inr ⟨k1, .inr (.inr ⟨rfl, k3⟩)⟩, ⟨fun _ => k2, fun _ => rfl⟩⟩

/-- **C89, the ledger is final.** What is sent stays sent, in the same packages; what is lost stays lost; what is broken stays broken. -/
theorem C89_final {s0 : AState (l :: ls).length} {L0 : FLedger} (h : Booked A l ls s0 L0 s em L) : L0.led.sent <+: L.led.sent ∧ L0.led.lost <+: L.led.lost ∧ L0.broken <+: L.broken := by
  have key : ∀ (L : Ledger) t, L.sent <+: (L.poll t).sent ∧ L.lost <+: (L.poll t).lost := by
    intro L t
    unfold Ledger.poll
    split
    · exact ⟨List.prefix_rfl, List.prefix_rfl⟩
    · rename_i e polled hc
      have := Ledger_first_grows L e
      cases polled <;> cases t <;> first | exact this | exact ⟨List.prefix_rfl, List.prefix_rfl⟩
  induction h with
  | start => exact ⟨List.prefix_rfl, List.prefix_rfl, List.prefix_rfl⟩
  | emit e _ _ ih => exact ih
  | @poll s s' em L e st as _ _ _ ih =>
    cases heard (s.polled A st as) with
    | ok t => exact ⟨ih.1.trans (key _ _).1, ih.2.1.trans (key _ _).2, ih.2.2⟩
    | error err => exact ⟨ih.1.trans (key _ _).1, ih.2.1.trans (key _ _).2, ih.2.2.trans (List.prefix_append _ _)⟩
  | @drop s s' em L _ _ ih =>
    refine ⟨ih.1.trans ?_, ih.2.1.trans ?_, ih.2.2⟩ <;> unfold FLedger.drop Ledger.drop <;> dsimp only <;> split <;> first | exact List.prefix_rfl | exact List.prefix_append _ _

theorem length_le_flatten {α : Type} : ∀ gs : List (List α), (∀ g ∈ gs, g ≠ []) → gs.length ≤ gs.flatten.length := by
  intro gs
  induction gs with
  | nil => simp
  | cons g gs ih =>
    intro h
    have := ih fun x hx => h x (by simp [hx])
    have := List.length_pos_iff.2 (h g (by simp))
    simp only [List.flatten_cons, List.length_append, List.length_cons]
    omega

/-- **C89, nonces.** Whatever is dropped and fails: each layer encrypts one package for each package of the ledger at most, only with its own key, and package number `j` with the nonce for the number `j` after the packages it had sent
before; so no nonce occurs twice among 2^64 packages. -/
theorem C89_nonces (h : BookedAll A l ls s em L) (hc : ∀ e ∈ em, (Link.DropKind.droppingLayers A l ls).carries e) (k : Nat) (x : Layer) (hk : (l :: ls)[k]? = some x) :
    ∃ new, (logs (l :: ls).length s.w)[k]? = some (x.log ++ new) ∧ L.led.sent.length ≤ new.length + 1 ∧ new.length ≤ L.led.sent.length ∧ L.led.sent.length ≤ em.length ∧
      (∀ (j : Nat) (y : Encryption), new[j]? = some y → y.key = x.key ∧ Nonce (x.start + j) y.nonce) ∧ (new.length ≤ 2 ^ 64 → (new.map Encryption.nonce).Nodup) := by
  have hi := any_inv h hc
  obtain ⟨hi1, hi2, hi3⟩ := logged_sends A ls
  have hlen : L.led.sent.length ≤ em.length := by
    have h1 := hi.sub.length_le
    rw [List.length_append, List.length_append] at h1
    have := length_le_flatten L.led.sent fun g hg => (hi.good.ne g hg).1
    omega
  have key : LoggedAt (L.led.sent.length - 1) L.led.sent.length (l :: ls) s.w := by
    obtain ⟨⟨ws, t⟩, cur⟩ := s
    have hs := hi.good.shape
    generalize L.led.sent = sent at hs
    dsimp only at hs ⊢
    cases hs with
    | idle g1 g2 => exact ⟨⟨_, by omega, Nat.le_refl _, g1⟩, loggedAt_mono (by omega) (Nat.le_refl _) (hi1 g2)⟩
    | writing g1 g2 => exact ⟨⟨_, by simp, by simp, g1⟩, loggedAt_mono (by simp) (by simp) (hi2 g2)⟩
    | flushWriting g1 g2 => exact ⟨⟨_, by simp, by simp, g1⟩, loggedAt_mono (by simp) (by simp) (hi2 g2)⟩
    | flushing g1 g2 => exact ⟨⟨_, by simp, by simp, g1⟩, loggedAt_mono (by simp) (by simp) (hi3 g2)⟩
  obtain ⟨lg, m, f1, f2, f3, new, rfl, rfl, f6⟩ := loggedAt_logs key k x hk
  refine ⟨new, f1, by omega, by omega, hlen, fun j y hy => ?_, fun hn => ?_⟩
  · obtain ⟨k1, k2⟩ := f6 j y hy
    exact ⟨k1, k2 ▸ nonce_spec _⟩
  · rw [List.Nodup, List.pairwise_iff_getElem]
    intro a b ha hb hab heq
    rw [List.length_map] at ha hb
    simp only [List.getElem_map] at heq
    rw [(f6 a _ (List.getElem?_eq_getElem ha)).2, (f6 b _ (List.getElem?_eq_getElem hb)).2] at heq
    have := congrArg UInt64.toNat (nonceFromNumber_inj heq)
    simp only [UInt64.toNat_ofNat'] at this
    omega

/-- Reading packages that carry events each, and then something that gives no event. -/
theorem readLoop_layerGroups {closed checks : Bool} {o : Outcome Unit} : ∀ (fuel i : Nat) (gs : List (List Event)) (left : List Event) (r : RState ls.length) (cut : Bytes), (∀ e ∈ left ++ gs.flatten, Small e) →
    (∀ g ∈ gs, GroupOk A ls g) → (left ++ gs.flatten).length < fuel →
    (∀ n r', (receives A closed (l :: ls)).idle (i + gs.length) r' cut → readLoop (source (layersR A (l :: ls).length)) checks (n + 1) r' = ([], o)) →
    (receives A closed ls).idle i r (packs (sends A ls) A l i gs ++ cut) →
    readLoop (source (encryptedR (layersR A ls.length) A)) checks fuel (({ dec := decAt l i, remaining := framesOf left } : ReadStream), r) = (left ++ gs.flatten, o) := by
  intro fuel
  induction fuel with
  | zero => intro i gs left r cut _ _ h; omega
  | succ n ih =>
    intro i gs left r cut hsm hok hf hcut h
    have hok' : ∀ {g}, GroupOk A ls g → ((receives A closed ls).layer A l).ok (framesOf g).length := fun hg => ⟨hg.2.1, hg.2.2.1, receives_ok' A closed ls hg.2.2.2⟩
    have hwr : ∀ i g, ((receives A closed ls).layer A l).wrap i (framesOf g) = (sends A ls).wrap i (pkg A l i (framesOf g)) := fun i g => wraps_same A closed ls _ _
    cases left with
    | cons e left =>
      rw [framesOf_cons, readLoop_step n (read_there (fromBytes_frame_append checks (hsm e (by simp)) _)),
        ih i gs left r cut (fun e' he' => hsm e' (by simp only [List.cons_append, List.mem_cons]; exact .inr he')) hok (by simpa using hf) hcut h]
      rfl
    | nil =>
      cases gs with
      | nil =>
        simp only [packs, List.nil_append] at h
        exact hcut n _ ⟨rfl, h⟩
      | cons g gs =>
        have hg := hok g (by simp)
        cases g with
        | nil => exact absurd rfl hg.1
        | cons e g =>
          have hse : Small e := hsm e (by simp)
          simp only [packs, List.append_assoc] at h
          have hidle : ((receives A closed ls).layer A l).idle i (({ dec := decAt l i, remaining := framesOf [] } : ReadStream), r)
              (((receives A closed ls).layer A l).wrap i (framesOf (e :: g)) ++ (packs (sends A ls) A l (i + 1) gs ++ cut)) := ⟨rfl, by rw [hwr]; exact h⟩
          obtain ⟨⟨rs', r'⟩, k1, rest', k2, k3, k4⟩ := (receives A closed ls).read_first A l (checks := checks) (e := e) (t := framesOf g) (hok' hg)
            (by rw [framesOf_cons]; exact fromBytes_frame_append checks hse _)
            (fun h => by have := congrArg List.length h; rw [framesOf_cons, List.length_append] at this; have := frame_pos e; omega) hidle
          cases k2
          dsimp only at k3 k4
          subst k3
          rw [readLoop_step n k1, ih (i + 1) gs g r' cut (fun e' he' => hsm e' (by simp only [List.flatten_cons, List.nil_append, List.cons_append, List.mem_cons]; exact .inr he'))
            (fun g' hg' => hok g' (by simp [hg'])) (by simpa using hf) ?_ k4]
          · rfl
          · intro n r' h'
            refine hcut n r' ?_
            rw [show i + ((e :: g) :: gs).length = i + 1 + gs.length by simp only [List.length_cons]; omega]
            exact h'

/-- As many whole packages as there are. -/
theorem packs_split (S : Sends (layersW A ls.length)) : ∀ (gs : List (List Event)) (i : Nat) (b : Bytes),
    ∃ k b', k ≤ gs.length ∧ b = packs S A l i (gs.take k) ++ b' ∧ ∀ g, gs[k]? = some g → ¬ whole S A l (i + k) g <+: b' := by
  intro gs
  induction gs with
  | nil => intro i b; exact ⟨0, b, Nat.le_refl _, by simp [packs], by simp⟩
  | cons g gs ih =>
    intro i b
    rcases Classical.em (whole S A l i g <+: b) with ⟨b', rfl⟩ | hno
    · obtain ⟨k, c, h1, h2, h3⟩ := ih (i + 1) b'
      refine ⟨k + 1, c, by simpa using h1, ?_, fun g' hg' => ?_⟩
      · simp only [List.take_succ_cons, packs, List.append_assoc]
        rw [h2]
      · rw [show i + (k + 1) = i + 1 + k by omega]
        exact h3 g' (by simpa using hg')
    · exact ⟨0, b, Nat.zero_le _, by simp [packs], by simpa using hno⟩

theorem packs_take_succ (S : Sends (layersW A ls.length)) {gs : List (List Event)} {k : Nat} {g : List Event} (h : gs[k]? = some g) :
    packs S A l 0 (gs.take (k + 1)) = packs S A l 0 (gs.take k) ++ whole S A l k g := by
  have hlt := (List.getElem?_eq_some_iff.1 h).1
  rw [List.take_add_one, h, packs_append, List.length_take, Nat.min_eq_left (by omega)]
  simp [packs, whole]

theorem packs_take_prefix (S : Sends (layersW A ls.length)) (gs : List (List Event)) {k k' : Nat} (h : k ≤ k') : packs S A l 0 (gs.take k) <+: packs S A l 0 (gs.take k') := by
  have : gs.take k' = gs.take k ++ (gs.take k').drop k := by
    have h6 := (List.take_append_drop k (gs.take k')).symm
    rwa [List.take_take, Nat.min_eq_left h] at h6
  rw [this, packs_append]
  exact List.prefix_append _ _

/-- **C89, reading.** The peer has the same layers and receives a beginning of the wire, in pieces of any size. If of the wire only that deciphers which the innermost layer has encrypted, each package with its own number, then it
reads exactly the events of the packages that have arrived whole, one after the other, from the first on. If more whole packages follow (by their length), the next read gives an error (`InvalidData`); else it waits, or, at the end of the
stream, gives `UnexpectedEof`. -/
theorem C89_read (h : BookedAll A l ls s em L) (hc : ∀ e ∈ em, (Link.DropKind.droppingLayers A l ls).carries e) {x : Layer} (hx : (l :: ls).getLast? = some x)
    (unforged : ∀ (i : Nat) (nonce c q : Bytes), i ≤ L.led.sent.length → Nonce (x.start + i) nonce → c <:+: s.wire A → A.dec x.key nonce c = some q →
      ∃ g pkg, L.led.sent[i]? = some g ∧ PackageOf A l ls i g pkg ∧ c = pkg.drop 4)
    (sc : Script) (hsc : scriptBytes sc <+: s.wire A) (checks : Bool) (fuel : Nat) (hf : em.length < fuel) :
    ∃ k pkgs rest o, k ≤ L.led.sent.length ∧ scriptBytes sc = pkgs ++ rest ∧ NestedGroups A (l :: ls) 0 (L.led.sent.take k) pkgs ∧
      (∀ k' pkgs', k' ≤ L.led.sent.length → NestedGroups A (l :: ls) 0 (L.led.sent.take k') pkgs' → pkgs' <+: scriptBytes sc → k' ≤ k) ∧
      readLoop (source (layersR A (l :: ls).length)) checks fuel (startR sc (l :: ls)) = ((L.led.sent.take k).flatten, o) ∧
      (NoPackage rest → o = if sc.closed then .err (.io .unexpectedEof) else .hang) ∧ (¬ NoPackage rest → o = .err (.io .invalidData)) := by
  have hi := any_inv h hc
  have hsm : ∀ e ∈ L.led.sent.flatten, Small e := fun e he => any_small h hc e (List.mem_append_left _ he)
  have hok := hi.good.ne
  have htk : ∀ k, ∀ g ∈ L.led.sent.take k, GroupOk A ls g := fun k g hg => hok g (List.mem_of_mem_take hg)
  have hsub' : ∀ k, (L.led.sent.take k).flatten.Sublist L.led.sent.flatten := by
    intro k
    conv => rhs; rw [← List.take_append_drop k L.led.sent, List.flatten_append]
    exact List.sublist_append_left _ _
  have hsmk : ∀ k, ∀ e ∈ (L.led.sent.take k).flatten, Small e := fun k e he => hsm e ((hsub' k).subset he)
  obtain ⟨k, b', h1, h2, h3⟩ := packs_split (A := A) (l := l) (sends A ls) L.led.sent 0 (scriptBytes sc)
  rw [Nat.zero_add] at h3
  have hdead : ∀ p rest, b' = p ++ rest → complete p = true → A.dec x.key (nonceFromNumber (UInt64.ofNat (x.start + k))) (p.drop 4) = none := by
    intro p rest hp hcp
    cases hdec : A.dec x.key (nonceFromNumber (UInt64.ofNat (x.start + k))) (p.drop 4) with
    | none => rfl
    | some q =>
      exfalso
      have hinf : p.drop 4 <:+: s.wire A := by
        refine ((List.drop_suffix 4 p).isInfix).trans (List.IsInfix.trans ?_ hsc.isInfix)
        rw [h2, hp]
        exact ⟨_, rest, by rw [List.append_assoc]⟩
      obtain ⟨g, pk, g1, g2, g3⟩ := unforged k _ (p.drop 4) q h1 (nonce_spec _) hinf hdec
      have hgm := List.mem_of_getElem? g1
      have hpk := packageOf_unique g2 (packageOf_whole (hok g hgm) fun e he => hsm e (List.mem_flatten_of_mem hgm he))
      have hcw : complete pk = true := by
        obtain ⟨-, k1, k2, k3⟩ := hok g hgm
        rw [hpk, whole, sends_wrap]
        have := complete_wrapL A k ls l (f := framesOf g) ⟨k1, k2, okL_of_sends A ls k3⟩
        exact this
      have := complete_inj hcp hcw g3
      exact h3 g g1 ⟨rest, by rw [← hpk, ← this, hp]⟩
  obtain ⟨av, g1, S, g2⟩ := dead_event A sc.closed k b' l ls x hx hdead
  have hst := receives_start A sc ls
  have hfl : flat sc.chunks = scriptBytes sc := rfl
  rw [hfl, h2] at hst
  have hlen : (L.led.sent.take k).flatten.length ≤ em.length := by
    have k1 := (hsub' k).length_le
    have k2 := ((List.sublist_append_left _ _).trans ((List.sublist_append_left _ _).trans hi.sub)).length_le
    omega
  have hread := readLoop_layerGroups (A := A) (l := l) (checks := checks) (o := stops av sc.closed) fuel 0 (L.led.sent.take k) [] _ b' (by simpa using hsmk k) (htk k) (by simp only [List.nil_append]; omega) (by
      intro n r' hr
      rw [Nat.zero_add, List.length_take, Nat.min_eq_left h1] at hr
      unfold readLoop
      rw [S.event (g2 r' hr)]
      unfold stops
      cases av with
      | some _ => rfl
      | none => cases sc.closed <;> rfl) hst
  refine ⟨k, _, b', _, h1, h2, nestedGroups_packs A l ls _ 0 (htk k) (hsmk k), ?_, hread, fun hn => ?_, fun hn => ?_⟩
  · intro k' pkgs' hk' hp hpre
    by_cases hlt : k' ≤ k
    · exact hlt
    · exfalso
      have hkl : k < L.led.sent.length := by omega
      have hp' := nestedGroups_unique hp (nestedGroups_packs A l ls _ 0 (htk k') (hsmk k'))
      rw [hp'] at hpre
      have := (packs_take_prefix (A := A) (l := l) (sends A ls) L.led.sent (show k + 1 ≤ k' by omega)).trans hpre
      rw [packs_take_succ _ (List.getElem?_eq_getElem hkl), h2] at this
      exact h3 _ (List.getElem?_eq_getElem hkl) ((List.prefix_append_right_inj _).1 this)
  · rw [g1.2 hn]
    simp [stops]
  · have : av ≠ none := fun h => hn (g1.1 h)
    simp [stops, this]

theorem length_parts (S : Sends (layersW A ls.length)) : ∀ (gs : List (List Event)) (i : Nat) (parts : List Bytes), parts.length = gs.length →
    (∀ (j : Nat) (g : List Event) (p : Bytes), gs[j]? = some g → parts[j]? = some p → p <+: whole S A l (i + j) g) → parts.flatten.length ≤ (packs S A l i gs).length := by
  intro gs
  induction gs with
  | nil =>
    intro i parts hl _
    have : parts = [] := List.eq_nil_of_length_eq_zero (by simpa using hl)
    subst this
    simp
  | cons g gs ih =>
    intro i parts hl h
    match parts, hl with
    | p :: parts, hl =>
      have h1 := (h 0 g p rfl rfl).length_le
      have h2 := ih (i + 1) parts (by simpa using hl) fun j g' p' hg hp => by
        have := h (j + 1) g' p' (by simpa using hg) (by simpa using hp)
        rwa [show i + (j + 1) = i + 1 + j by omega] at this
      simp only [packs, List.flatten_cons, List.length_append]
      exact Nat.add_le_add h1 h2

/-- **C89, bytes.** Whatever is dropped and fails, there are never more bytes on the wire than the frames of the events whose emits got the connection and 20 bytes for each of them in each layer. -/
theorem C89_bytes (h : BookedAll A l ls s em L) (hc : ∀ e ∈ em, (Link.DropKind.droppingLayers A l ls).carries e) :
    (s.wire A).length ≤ (em.map fun e => frameSize e + 20 * (l :: ls).length).sum := by
  have hi := any_inv h hc
  obtain ⟨parts, h1, h2, h3⟩ := any_parts hi
  have h4 := length_parts (sends A ls) L.led.sent 0 parts h1 fun j g p hg hp => by
    rw [Nat.zero_add]
    exact (h3 j g p hg hp).1
  have h5 := length_packs (A := A) (l := l) (ls := ls) L.led.sent 0 hi.good.ne
  have h6 := cost_sublist (n := (l :: ls).length) ((List.sublist_append_left _ _).trans (C89_account h hc).2.1)
  rw [h2]
  unfold cost at h5 h6
  omega

/-- **C89, an emit comes to its end.** Whatever has been dropped and has failed: if the emit that has the connection is polled again and again, each time the socket being ready at first (whatever it answers then), then it is over (with `Ok`,
with an error of the socket, or with a panic) at the latest after as many polls as bytes could still go to the wire. -/
theorem C89_finishes (h : BookedAll A l ls s em L) (hc : ∀ e ∈ em, (Link.DropKind.droppingLayers A l ls).carries e) (polls : List (List IoAns))
    (hready : ∀ as ∈ polls, ∃ n more, as = .ready (n + 1) :: more)
    (hlong : (em.map fun e => frameSize e + 20 * (l :: ls).length).sum < (s.wire A).length + polls.length) :
    ∃ k s', anySteps A l ls s ((polls.take k).map .poll) = some s' ∧ s'.cur = none := by
  induction polls generalizing s L with
  | nil =>
    have := C89_bytes h hc
    simp only [List.length_nil] at hlong
    omega
  | cons as polls ih =>
    cases hcur : s.cur with
    | none => exact ⟨0, s, rfl, hcur⟩
    | some x =>
      obtain ⟨e, st⟩ := x
      obtain ⟨s', h1, h2, h3, -⟩ := C89_poll h hc hcur as
      rcases h3 with ⟨st', -, -, hgrow⟩ | ⟨h4, -⟩
      · have hg := hgrow (hready as (by simp))
        obtain ⟨k, s'', h5, h6⟩ := ih (.poll as h hcur h1) (fun as' ha => hready as' (by simp [ha])) (by have : (as :: polls).length = polls.length + 1 := rfl; omega)
        exact ⟨k + 1, s'', (congrArg (Option.bind · _) h1).trans h5, h6⟩
      · exact ⟨1, s', (congrArg (Option.bind · _) h1).trans rfl, h4⟩

/-- **C89, before a failure.** If no poll has failed while one of the first `j` packages was the last (and they are not unfinished), then these packages are on the wire, complete and first. -/
theorem C89_before (h : BookedAll A l ls s em L) (hc : ∀ e ∈ em, (Link.DropKind.droppingLayers A l ls).carries e) (j : Nat) (hj : j ≤ L.led.sent.length) (hb : ∀ i ∈ L.broken, j ≤ i)
    (hu : L.led.unfinished = none ∨ j < L.led.sent.length) : ∃ pkgs, NestedGroups A (l :: ls) 0 (L.led.sent.take j) pkgs ∧ pkgs <+: s.wire A := by
  have hi := any_inv h hc
  have hsm : ∀ e ∈ L.led.sent.flatten, Small e := fun e he => any_small h hc e (List.mem_append_left _ he)
  obtain ⟨parts, h1, h2, h3⟩ := any_parts hi
  have key : ∀ k, k ≤ j → packs (sends A ls) A l 0 (L.led.sent.take k) = (parts.take k).flatten := by
    intro k
    induction k with
    | zero => intro _; simp [packs]
    | succ k ih =>
      intro hk
      have hlt : k < L.led.sent.length := by omega
      have hlt' : k < parts.length := by omega
      obtain ⟨-, g2⟩ := h3 k _ _ (List.getElem?_eq_getElem hlt) (List.getElem?_eq_getElem hlt')
      have g3 := g2 (fun hm => by have := hb k hm; omega) (hu.imp id fun h => by omega)
      rw [packs_take_succ _ (List.getElem?_eq_getElem hlt), ih (by omega), List.take_add_one, List.getElem?_eq_getElem hlt', List.flatten_append]
      simp only [Option.toList_some, List.flatten_cons, List.flatten_nil, List.append_nil]
      rw [g3]
  refine ⟨_, nestedGroups_packs A l ls (L.led.sent.take j) 0 (fun g hg => hi.good.ne g (List.mem_of_mem_take hg)) (fun e he => hsm e ?_), ?_⟩
  · rw [← List.take_append_drop j L.led.sent, List.flatten_append]
    exact List.mem_append_left _ he
  · rw [key j (Nat.le_refl _), h2]
    exact flatten_prefix (List.take_prefix _ _)

theorem nestedGroups_take : ∀ {gs : List (List Event)} {i : Nat} {bs : Bytes}, NestedGroups A (l :: ls) i gs bs → ∀ k, ∃ m t, NestedGroups A (l :: ls) i (gs.take k) m ∧ m ++ t = bs := by
  intro gs
  induction gs with
  | nil => intro i bs h k; exact ⟨[], [], by simp [NestedGroups], by rw [show bs = [] from h]; rfl⟩
  | cons g gs ih =>
    rintro i bs ⟨f, p, r, h1, h2, rfl, h3⟩ k
    cases k with
    | zero => exact ⟨[], p ++ r, by simp [NestedGroups], rfl⟩
    | succ k =>
      obtain ⟨m, t, g1, rfl⟩ := ih h3 k
      exact ⟨p ++ m, t, ⟨f, p, m, h1, h2, rfl, g1⟩, by rw [List.append_assoc]⟩

/-- (A user would expect that an event whose emit has returned `Ok` arrives, or that after an error all further emits fail.) Once package number `j` is torn, so that what is on the wire does not begin with the packages up to this one,
the peer reads none of the events of it and of the later ones, whatever the later emits have returned. -/
theorem C89_violated_after (h : BookedAll A l ls s em L) (hc : ∀ e ∈ em, (Link.DropKind.droppingLayers A l ls).carries e) {x : Layer} (hx : (l :: ls).getLast? = some x)
    (unforged : ∀ (i : Nat) (nonce c q : Bytes), i ≤ L.led.sent.length → Nonce (x.start + i) nonce → c <:+: s.wire A → A.dec x.key nonce c = some q →
      ∃ g pkg, L.led.sent[i]? = some g ∧ PackageOf A l ls i g pkg ∧ c = pkg.drop 4)
    (j : Nat) (torn : ∀ pkgs, NestedGroups A (l :: ls) 0 (L.led.sent.take (j + 1)) pkgs → ¬ pkgs <+: s.wire A)
    (sc : Script) (hsc : scriptBytes sc <+: s.wire A) (checks : Bool) (fuel : Nat) (hf : em.length < fuel) :
    (readLoop (source (layersR A (l :: ls).length)) checks fuel (startR sc (l :: ls))).1 <+: (L.led.sent.take j).flatten := by
  obtain ⟨k, pkgs, rest, o, h1, h2, h3, -, h4, -⟩ := C89_read h hc hx unforged sc hsc checks fuel hf
  rw [h4]
  have hkj : k ≤ j := by
    by_cases hle : k ≤ j
    · exact hle
    · exfalso
      obtain ⟨m, t, g1, g2⟩ := nestedGroups_take h3 (j + 1)
      rw [List.take_take, Nat.min_eq_left (by omega)] at g1
      refine torn m g1 (List.IsPrefix.trans ⟨t ++ rest, ?_⟩ hsc)
      rw [h2, ← g2, List.append_assoc]
  exact flatten_prefix (List.take_prefix_take_left hkj)

/-- The packages that are broken are among those sent. -/
theorem broken_lt (h : BookedAll A l ls s em L) (hc : ∀ e ∈ em, (Link.DropKind.droppingLayers A l ls).carries e) :
    (∀ e, L.led.cur = some (e, true) → L.led.unfinished ≠ none) ∧ (L.led.unfinished ≠ none → L.led.sent ≠ []) ∧ ∀ i ∈ L.broken, i < L.led.sent.length := by
  induction h with
  | start => exact ⟨(fun e h => by cases h), (fun h => absurd rfl h), (fun i h => by cases h)⟩
  | @emit s s' em L e h hs ih =>
    obtain ⟨-, h2, h3⟩ := ih fun e' he' => hc e' (List.mem_append_left _ he')
    exact ⟨(fun e' h => by simp [FLedger.emit, Ledger.emit] at h), h2, h3⟩
  | @drop s s' em L h hs ih =>
    obtain ⟨-, h2, h3⟩ := ih hc
    unfold FLedger.drop Ledger.drop
    dsimp only
    split
    · exact ⟨(fun e h => by cases h), h2, h3⟩
    · exact ⟨(fun e h => by cases h), h2, h3⟩
  | @poll s s' em L e st as h hcur hs ih =>
    obtain ⟨h1, h2, h3⟩ := ih hc
    have hsame := (any_inv h hc).same
    rw [hcur] at hsame
    rcases hL : L.led.cur with _ | ⟨e', polled⟩
    · rw [hL] at hsame; cases hsame
    · have hne : (if polled then L.led else L.led.first e').sent ≠ [] := by
        cases polled with
        | true => exact h2 (h1 e' hL)
        | false =>
          simp only [Bool.false_eq_true, if_false]
          cases hu : L.led.unfinished with
          | none => simp [Ledger.first, hu]
          | some u =>
            have := h2 (by rw [hu]; simp)
            cases u with
            | write => simpa [Ledger.first, hu] using this
            | flush => simp only [Ledger.first, hu]; split <;> exact this
      have hle : L.led.sent.length ≤ (if polled then L.led else L.led.first e').sent.length := by
        cases polled with
        | true => exact Nat.le_refl _
        | false => exact (Ledger_first_grows L.led e').1.length_le
      have h3' : ∀ i ∈ L.broken, i < (if polled then L.led else L.led.first e').sent.length := fun i hi => Nat.lt_of_lt_of_le (h3 i hi) hle
      have hpos := List.length_pos_iff.2 hne
      cases heard (s.polled A st as) with
      | error err =>
        simp only [FLedger.poll, Ledger.poll, hL]
        refine ⟨by simp, by simp, fun i hi => ?_⟩
        rcases List.mem_append.1 hi with hi | hi
        · exact h3' i hi
        · rw [List.mem_singleton] at hi
          omega
      | ok t =>
        cases t with
        | ok => simp only [FLedger.poll, Ledger.poll, hL]; exact ⟨by simp, by simp, h3'⟩
        | inWrite => simp only [FLedger.poll, Ledger.poll, hL]; exact ⟨by simp, fun _ => hne, h3'⟩
        | inFlush => simp only [FLedger.poll, Ledger.poll, hL]; exact ⟨by simp, fun _ => hne, h3'⟩
        | panicked => simp only [FLedger.poll, Ledger.poll, hL]; exact ⟨by simp, fun _ => hne, h3'⟩

/-- (A user would expect that an emit that has returned an error has sent nothing.) The flush of a dropped emit is unfinished, and at its first poll the next emit, of a small event `e`, gives an error. Its event is nevertheless not gone:
it stays in the buffer, and the next emit, when it returns `Ok`, has sent it, in one package with its own event. -/
theorem C89_violated_error_sent {s1 s2 s3 : AState (l :: ls).length} {e e' : Event} {st st' : Stage} {as as' : List IoAns} {err : IoErr} (h : BookedAll A l ls s em L)
    (hc : ∀ e ∈ em ++ [e'], (Link.DropKind.droppingLayers A l ls).carries e) (hcur : s.cur = some (e, st)) (hfirst : L.led.cur = some (e, false)) (hu : L.led.unfinished = some .flush)
    (hsize : (L.led.waiting.map frameSize).sum + frameSize e < 1024) (hs1 : anyStep A s (.poll as) = some s1) (herr : (s.polled A st as).1 = .ready (.error err))
    (hs2 : anyStep A s1 (.emit e') = some s2) (hcur2 : s2.cur = some (e', st')) (hs3 : anyStep A s2 (.poll as') = some s3) (hok : (s2.polled A st' as').1 = .ready (.ok ())) :
    ∃ before pkg, s3.wire A = before ++ pkg ∧ PackageOf A l ls L.led.sent.length (L.led.waiting ++ [e, e']) pkg := by
  have hc0 : ∀ e ∈ em, (Link.DropKind.droppingLayers A l ls).carries e := fun e he => hc e (List.mem_append_left _ he)
  have hb := broken_lt h hc0
  have hne := hb.2.1 (by rw [hu]; simp)
  have h1 := Booked.poll as h hcur hs1
  have e1 : L.poll (heard (s.polled A st as)) = { led := { L.led with waiting := L.led.waiting ++ [e], unfinished := none, cur := none }, broken := L.broken ++ [L.led.sent.length - 1] } := by
    generalize s.polled A st as = y at herr
    obtain ⟨r, x⟩ := y
    dsimp only at herr
    subst herr
    simp [heard, FLedger.poll, Ledger.poll, hfirst, Ledger.first, hu, hsize]
  rw [e1] at h1
  have h2 := Booked.emit e' h1 hs2
  have h3 := Booked.poll as' h2 hcur2 hs3
  have e3 : (FLedger.emit { led := { L.led with waiting := L.led.waiting ++ [e], unfinished := none, cur := none }, broken := L.broken ++ [L.led.sent.length - 1] } e').poll (heard (s2.polled A st' as')) =
      { led := { L.led with sent := L.led.sent ++ [L.led.waiting ++ [e, e']], waiting := [], unfinished := none, cur := none }, broken := L.broken ++ [L.led.sent.length - 1] } := by
    generalize s2.polled A st' as' = y at hok
    obtain ⟨r, x⟩ := y
    dsimp only at hok
    subst hok
    simp [heard, told, FLedger.poll, Ledger.poll, FLedger.emit, Ledger.emit, Ledger.first]
  rw [e3] at h3
  obtain ⟨⟨parts, k1, k2, k3⟩, -⟩ := C89_wire h3 hc
  have hlen : L.led.sent.length < parts.length := by rw [k1]; simp
  obtain ⟨-, pk, g1, -, g3⟩ := k3 L.led.sent.length (L.led.waiting ++ [e, e']) _ (by simp) (List.getElem?_eq_getElem hlen)
  have g4 := g3 (by
    intro hm
    rcases List.mem_append.1 hm with hm | hm
    · exact absurd (hb.2.2 _ hm) (by omega)
    · rw [List.mem_singleton] at hm
      have := List.length_pos_iff.2 hne
      omega) (.inl rfl)
  have hsplit : parts = parts.take L.led.sent.length ++ [pk] := by
    have := (List.take_append_drop L.led.sent.length parts).symm
    rw [List.drop_eq_getElem_cons hlen, g4, List.drop_of_length_le (by rw [k1]; simp)] at this
    exact this
  have hwire : s3.wire A = (parts.take L.led.sent.length).flatten ++ pk := by
    rw [k2]
    conv => lhs; rw [hsplit]
    simp
  exact ⟨_, pk, hwire, g1⟩

/-- **C89, without drops.** If no emit is dropped this is the connection of C88. -/
theorem C89_without_drops (s : FState (l :: ls).length) :
    (∀ e, (failStep A s (.emit e)).map (fun s' => (s'.w, s'.cur)) = (anyStep A { w := s.w, cur := s.cur } (.emit e)).map fun s' => (s'.w, s'.cur)) ∧
    ∀ as, (failStep A s (.poll as)).map (fun s' => (s'.w, s'.cur)) = (anyStep A { w := s.w, cur := s.cur } (.poll as)).map fun s' => (s'.w, s'.cur) := by
  constructor
  · intro e
    simp only [failStep, anyStep]
    cases s.cur <;> rfl
  · intro as
    simp only [failStep, anyStep]
    cases s.cur with
    | none => rfl
    | some x =>
      obtain ⟨e, st⟩ := x
      dsimp only [AState.polled]
      have hw : ({ (layersW A (l :: ls).length).base s.w with answers := as } : Socket) = { answers := as, wire := AState.wire A { w := s.w, cur := some (e, st) } } := rfl
      rw [hw]
      generalize pollEmit _ _ _ = y
      obtain ⟨(_ | _) | _ | _, st', w⟩ := y <;> rfl

/-- **C89, without errors.** If no poll fails this is the sending side of the connection of C86 and C87. -/
theorem C89_without_errors (s : LState (l :: ls).length) (cur : Option (Event × Stage)) (hcur : s.cur = cur.map Prod.snd) :
    (∀ as, Link.fineAns as = true → (Layers.dropStep A s (.poll as)).map (fun s' => (s'.w, s'.cur)) = (anyStep A { w := s.w, cur := cur } (.poll as)).map fun s' => (s'.w, s'.cur.map Prod.snd)) ∧
    (Layers.dropStep A s .drop).map (fun s' => (s'.w, s'.cur)) = (anyStep A { w := s.w, cur := cur } .drop).map fun s' => (s'.w, s'.cur.map Prod.snd) := by
  constructor
  · intro as hf
    simp only [Layers.dropStep, anyStep, hcur]
    cases cur with
    | none => rfl
    | some x =>
      obtain ⟨e, st⟩ := x
      simp only [Option.map_some, hf, if_true]
      dsimp only [AState.polled]
      have hw : ({ (layersW A (l :: ls).length).base s.w with answers := as } : Socket) = { answers := as, wire := AState.wire A { w := s.w, cur := some (e, st) } } := rfl
      rw [hw]
      generalize pollEmit _ _ _ = y
      obtain ⟨(_ | _) | _ | _, st', w⟩ := y <;> rfl
  · simp only [Layers.dropStep, anyStep, hcur]
    cases cur <;> rfl

end

/-! ### Cases -/

/-- The first emit is dropped in its flush; the second fails; the third returns `Ok`. -/
def opsAny : List AnyOp := [.emit ev1, .poll [.ready 5000, .pending], .drop, .emit ev2, .poll [.fail .other], .emit ev3, .poll [.ready 5000, .ready 1]]

/-- What the steps tell, and the ledger they lead to. -/
def bookRun (A : Aead) (l : Layer) (ls : List Layer) (s : AState (l :: ls).length) (L : FLedger) (em : List Event) : List AnyOp → Option (AState (l :: ls).length × FLedger × List Event)
  | [] => some (s, L, em)
  | .emit e :: os => (anyStep A s (.emit e)).bind fun s' => bookRun A l ls s' (L.emit e) (em ++ [e]) os
  | .drop :: os => (anyStep A s .drop).bind fun s' => bookRun A l ls s' L.drop em os
  | .poll as :: os =>
    match s.cur with
    | none => none
    | some (_, st) => (anyStep A s (.poll as)).bind fun s' => bookRun A l ls s' (L.poll (heard (s.polled A st as))) em os

theorem bookRun_booked {A : Aead} {l : Layer} {ls : List Layer} {s0 : AState (l :: ls).length} {L0 : FLedger} : ∀ (ops : List AnyOp) {s s' : AState (l :: ls).length} {L L' : FLedger} {em em' : List Event},
    Booked A l ls s0 L0 s em L → bookRun A l ls s L em ops = some (s', L', em') → Booked A l ls s0 L0 s' em' L' := by
  intro ops
  induction ops with
  | nil => intro s s' L L' em em' h hr; cases hr; exact h
  | cons o ops ih =>
    intro s s' L L' em em' h hr
    cases o with
    | emit e =>
      simp only [bookRun] at hr
      cases hs : anyStep A s (.emit e) with
      | none => rw [hs] at hr; cases hr
      | some s1 => rw [hs] at hr; exact ih (.emit e h hs) hr
    | drop =>
      simp only [bookRun] at hr
      cases hs : anyStep A s .drop with
      | none => rw [hs] at hr; cases hr
      | some s1 => rw [hs] at hr; exact ih (.drop h hs) hr
    | poll as =>
      simp only [bookRun] at hr
      split at hr
      · cases hr
      · rename_i e st hcur
        cases hs : anyStep A s (.poll as) with
        | none => rw [hs] at hr; cases hr
        | some s1 => rw [hs] at hr; exact ih (.poll as h hcur hs) hr

def demoAny (ops : List AnyOp) : Option (AState failLayers.length × FLedger × List Event) := bookRun toyAead { key := [5] } [{ key := [9], start := 2 }] (anyStart failLayers) {} [] ops

theorem carries_demoAny {ops : List AnyOp} {s : AState failLayers.length} {L : FLedger} {em : List Event} (h : demoAny ops = some (s, L, em)) (hs : ∀ e, .emit e ∈ ops → e = ev1 ∨ e = ev2 ∨ e = ev3) :
    ∀ e ∈ em, (Link.DropKind.droppingLayers toyAead { key := [5] } [{ key := [9], start := 2 }]).carries e := by
  have key : ∀ (ops : List AnyOp) (s s' : AState failLayers.length) (L L' : FLedger) (em em' : List Event), bookRun toyAead { key := [5] } [{ key := [9], start := 2 }] s L em ops = some (s', L', em') →
      ∀ e ∈ em', e ∈ em ∨ .emit e ∈ ops := by
    intro ops
    induction ops with
    | nil => intro s s' L L' em em' h e he; cases h; exact .inl he
    | cons o ops ih =>
      intro s s' L L' em em' h e he
      cases o with
      | emit x =>
        obtain ⟨s1, -, h2⟩ := Option.bind_eq_some_iff.1 h
        rcases ih _ _ _ _ _ _ h2 e he with h3 | h3
        · rcases List.mem_append.1 h3 with h4 | h4
          · exact .inl h4
          · exact .inr (by rw [List.mem_singleton.1 h4]; simp)
        · exact .inr (by simp [h3])
      | drop =>
        obtain ⟨s1, -, h2⟩ := Option.bind_eq_some_iff.1 h
        exact (ih _ _ _ _ _ _ h2 e he).imp id fun h => by simp [h]
      | poll as =>
        simp only [bookRun] at h
        split at h
        · cases h
        · obtain ⟨s1, -, h2⟩ := Option.bind_eq_some_iff.1 h
          exact (ih _ _ _ _ _ _ h2 e he).imp id fun h => by simp [h]
  intro e he
  rcases key ops _ _ _ _ _ _ h e he with h | h
  · cases h
  · rcases hs e h with rfl | rfl | rfl <;> exact ⟨by decide, by decide⟩

/-- The ledger of the run: the second event goes with the third, in the package number 1, although its emit has returned an error. -/
theorem run_opsAny : ∃ s, demoAny opsAny = some (s, { led := { sent := [[ev1], [ev2, ev3]] }, broken := [0] }, [ev1, ev2, ev3]) ∧
    readLoop (source (layersR toyAead failLayers.length)) false 9 (startR { chunks := [.data 0 ((s.wire toyAead).drop 1)], closed := false } failLayers) = ([ev1, ev2, ev3], .hang) := by
  have h : (demoAny opsAny).map (fun x => (x.2, readLoop (source (layersR toyAead failLayers.length)) false 9 (startR { chunks := [.data 0 ((x.1.wire toyAead).drop 1)], closed := false } failLayers))) =
      some (({ led := { sent := [[ev1], [ev2, ev3]] }, broken := [0] }, [ev1, ev2, ev3]), ([ev1, ev2, ev3], .hang)) := by
    decide +kernel
  obtain ⟨⟨s, L, em⟩, h1, h2⟩ := Option.map_eq_some_iff.1 h
  simp only [Prod.mk.injEq] at h2
  obtain ⟨⟨rfl, rfl⟩, h3⟩ := h2
  exact ⟨s, h1, by rw [h3]⟩

/-- The state before the poll of the second emit is one as in `C89_violated_error_sent`. -/
example : (demoAny [.emit ev1, .poll [.ready 5000, .pending], .drop, .emit ev2]).map (fun x => (x.2.1.led.cur, x.2.1.led.unfinished, x.2.1.led.sent, x.1.cur.map Prod.fst)) =
    some (some (ev2, false), some .flush, [[ev1]], some ev2) := by decide +kernel

/-- The first emit is dropped before it is polled; that of the second event fails in the middle of its package. The last one returns `Ok`. -/
def opsTorn : List AnyOp := [.emit ev3, .drop, .emit ev1, .poll [.ready 30, .pending], .poll [.ready 5000, .ready 1], .emit ev2, .poll [.ready 5, .pending], .poll [.fail .other], .emit ev3, .poll [.ready 5000, .ready 1]]

theorem run_opsTorn : ∃ s, demoAny opsTorn = some (s, { led := { sent := [[ev1], [ev2], [ev3]], lost := [ev3] }, broken := [1] }, [ev3, ev1, ev2, ev3]) ∧ s.wire toyAead = wireFail := by
  have h : (demoAny opsTorn).map (fun x => (x.2, x.1.wire toyAead)) = some (({ led := { sent := [[ev1], [ev2], [ev3]], lost := [ev3] }, broken := [1] }, [ev3, ev1, ev2, ev3]), wireFail) := by
    decide +kernel
  obtain ⟨⟨s, L, em⟩, h1, h2⟩ := Option.map_eq_some_iff.1 h
  simp only [Prod.mk.injEq] at h2
  obtain ⟨⟨rfl, rfl⟩, h3⟩ := h2
  exact ⟨s, h1, h3⟩

theorem unforged_opsTorn (i : Nat) (nonce c q : Bytes) (hi : i ≤ 3) (hno : Nonce (2 + i) nonce) (hc : c <:+: wireFail) (hd : toyAead.dec [9] nonce c = some q) :
    ∃ g pkg, [[ev1], [ev2], [ev3]][i]? = some g ∧ PackageOf toyAead { key := [5] } [{ key := [9], start := 2 }] i g pkg ∧ c = pkg.drop 4 := by
  obtain ⟨s, -, -, hb, -⟩ := run_opsFail
  obtain ⟨e, bs, pk, h1, ⟨f, h2, h2'⟩, h3⟩ := unforged_opsFail hb i nonce c q (by rw [hb]; simpa using hi) hno hc hd
  refine ⟨[e], pk, ?_, ⟨f, ⟨f, [], h2, by simp, rfl⟩, h2'⟩, h3⟩
  rw [hb] at h1
  have := congrArg (Option.map fun x => [x.1]) h1
  rw [← List.getElem?_map] at this
  exact this

/-- Whatever part of the wire the peer receives, in whatever pieces, it reads the first event at most, although the emit of the third event has returned `Ok`. -/
example : ∃ s, demoAny opsTorn = some (s, { led := { sent := [[ev1], [ev2], [ev3]], lost := [ev3] }, broken := [1] }, [ev3, ev1, ev2, ev3]) ∧
    ∀ (sc : Script) (checks : Bool) (fuel : Nat), scriptBytes sc <+: s.wire toyAead → 4 < fuel →
      (readLoop (source (layersR toyAead failLayers.length)) checks fuel (startR sc failLayers)).1 <+: [ev1] := by
  obtain ⟨s, h1, h2⟩ := run_opsTorn
  refine ⟨s, h1, fun sc checks fuel hsc hf => ?_⟩
  have hca := carries_demoAny h1 (by simp [opsTorn])
  refine C89_violated_after (l := { key := [5] }) (ls := [{ key := [9], start := 2 }]) (bookRun_booked _ .start h1) hca (x := { key := [9], start := 2 }) rfl (by
      intro i nonce c q hi hno hc hd
      rw [h2] at hc
      exact unforged_opsTorn i nonce c q hi hno hc hd) 1 ?_ sc hsc checks fuel hf
  intro pkgs hp hpre
  have hp' := nestedGroups_unique hp (nestedGroups_packs toyAead { key := [5] } [{ key := [9], start := 2 }] _ 0 (fun g hg => (any_inv (bookRun_booked _ .start h1) hca).good.ne g (List.mem_of_mem_take hg))
    (fun e he => CarryDrop.small (ls := [{ key := [9], start := 2 }]) (hca e (by
      simp only [List.take_succ_cons, List.take_zero, List.flatten_cons, List.flatten_nil, List.append_nil, List.cons_append, List.nil_append, List.mem_cons, List.not_mem_nil, or_false] at he
      rcases he with rfl | rfl <;> simp))))
  rw [hp', h2] at hpre
  revert hpre
  decide +kernel

/-- The third emit goes on with the package of the second, which was dropped, and fails. Its event waits, and is in the package of the fourth, which returns `Ok`; but the second package is torn, and the peer waits for it. -/
example : ((demoAny [.emit ev1, .poll [.ready 5000, .ready 1], .emit ev2, .poll [.ready 5, .pending], .drop, .emit ev1, .poll [.fail .other], .emit ev3, .poll [.ready 5000, .ready 1]]).map fun x =>
      (x.2.1, readLoop (source (layersR toyAead failLayers.length)) false 9 (startR { chunks := [.data 0 ((x.1.wire toyAead).drop 1)], closed := false } failLayers))) =
    some ({ led := { sent := [[ev1], [ev2], [ev1, ev3]] }, broken := [1] }, ([ev1], .hang)) := by decide +kernel

/-- An emit can also panic after another has failed, as in `C89_poll`. -/
example : ((demoAny [.emit ev1, .poll [.ready 5, .fail .other], .emit ev2, .poll [.ready 5000, .pending], .drop, .emit ev3]).map fun x => (x.2.1.led.unfinished, x.2.1.broken, x.2.1.led.cur)) =
    some (some .flush, [0], some (ev3, false)) := by decide +kernel

end Bromine.Props
