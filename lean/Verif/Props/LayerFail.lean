import Verif.Lemmas.LayerFail
import Verif.Lemmas.LayerDead
import Verif.Props.LayerDrop
import Verif.Props.CryptErr
import Verif.Props.LayerSession
/-
C88: connections with encrypted layers over a transport that fails.
-/
namespace Bromine.Props
open Bromine Bromine.Spec Bromine.CryptIO Bromine.Layers

section
variable {A : Aead} {l : Layer} {ls : List Layer} {ops : List FailOp} {s : FState (l :: ls).length}

theorem due_spec {i : Nat} {e : Event} (h : Carry ls e) : Due A (l :: ls) i e (due A l ls i e) :=
  ⟨_, frame_layout ⟨h.1, by have := h.2; omega⟩, nested_wrapL A i (l :: ls) (h.ok l)⟩

theorem due_unique {i : Nat} {e : Event} {a b : Bytes} (h : Due A (l :: ls) i e a) (h' : Due A (l :: ls) i e b) : a = b := by
  obtain ⟨f, h1, h2⟩ := h
  obtain ⟨f', g1, g2⟩ := h'
  have := frameLayout_unique h1 g1
  subst this
  exact nested_unique h2 g2

theorem fail_inv (h : failSteps A (failStart (l :: ls)) ops = some s) (hc : ∀ e, .emit e ∈ ops → (Link.Kind.layered A l ls).carries e) : FInv A l ls s :=
  finv_steps finv_start hc h

theorem began_mem (h : FInv A l ls s) {i : Nat} {e : Event} {bs : Bytes} (hb : (began A s)[i]? = some (e, bs)) : Carry ls e ∧ bs <+: due A l ls i e := by
  unfold began at hb
  rw [List.getElem?_append] at hb
  split at hb
  · rw [List.getElem?_map] at hb
    obtain ⟨x, h1, h2⟩ := Option.map_eq_some_iff.1 hb
    cases h2
    obtain ⟨g1, g2, -⟩ := h.past i x h1
    exact ⟨g1, g2⟩
  · rename_i hi
    rw [List.length_map] at hb hi
    cases hcur : s.cur with
    | none => rw [hcur] at hb; simp at hb
    | some y =>
      obtain ⟨e', st⟩ := y
      rw [hcur] at hb
      have hi' : i - s.over.length = 0 := by
        have := (List.getElem?_eq_some_iff.1 hb).1
        simp only [List.length_singleton] at this
        omega
      rw [hi'] at hb
      simp only [List.getElem?_cons_zero, Option.some.injEq, Prod.mk.injEq] at hb
      obtain ⟨rfl, rfl⟩ := hb
      obtain ⟨g1, part, r, -, g2, g3, g4⟩ := h.held e' st hcur
      have : i = s.over.length := by omega
      subst this
      refine ⟨g1, r, ?_⟩
      rw [g2, g3, List.drop_left, g4]

theorem began_wire (h : FInv A l ls s) : s.wire A = ((began A s).map Prod.snd).flatten := by
  unfold began
  cases hcur : s.cur with
  | none => rw [(h.free hcur).2]; simp [Function.comp_def]
  | some y =>
    obtain ⟨e, st⟩ := y
    obtain ⟨-, part, r, -, g2, g3, -⟩ := h.held e st hcur
    have : (s.wire A).drop s.mark = part := by rw [g2, g3, List.drop_left]
    simp only [this, List.map_append, List.map_map, List.map_cons, List.map_nil, List.flatten_append, List.flatten_cons, List.flatten_nil, List.append_nil]
    rw [g2]
    rfl

/-- **C88, the order.** The emits whose events are on the wire are those that have got the connection, in this order. -/
theorem C88_order (h : failSteps A (failStart (l :: ls)) ops = some s) :
    (began A s).map Prod.fst = ops.filterMap fun o => match o with | .emit e => some e | .poll _ => none := by
  have key : ∀ (ops : List FailOp) (s s' : FState (l :: ls).length), failSteps A s ops = some s' →
      (began A s').map Prod.fst = (began A s).map Prod.fst ++ ops.filterMap fun o => match o with | .emit e => some e | .poll _ => none := by
    intro ops
    induction ops with
    | nil => intro s s' h; cases h; simp
    | cons o ops ih =>
      intro s s' h
      simp only [failSteps] at h
      cases hs : failStep A s o with
      | none => rw [hs] at h; cases h
      | some s1 =>
        rw [hs] at h
        rw [ih s1 s' h]
        cases o with
        | emit e =>
          simp only [failStep] at hs
          split at hs
          · rename_i hcur
            cases hs
            simp [began, hcur]
          · cases hs
        | poll as =>
          simp only [failStep] at hs
          split at hs
          · cases hs
          · rename_i e st hcur
            split at hs <;> (cases hs; simp [began, hcur, FState.done])
  have := key ops _ s h
  simpa [began, failStart] using this

/-- **C88, the wire.** Whatever the socket answers, errors included: no emit panics. On the wire are, of each emit that has got the connection, one after the other, a beginning of what is due for it: its event in packages
in packages, each with the next number of its layer; all of it, if the emit has returned `Ok`. So an emit that has failed leaves nothing behind in any layer that a later emit would send. -/
theorem C88_wire (h : failSteps A (failStart (l :: ls)) ops = some s) (hc : ∀ e, .emit e ∈ ops → (Link.Kind.layered A l ls).carries e) :
    s.wire A = ((began A s).map Prod.snd).flatten ∧ (∀ i e bs, (began A s)[i]? = some (e, bs) → ∃ pkg, Due A (l :: ls) i e pkg ∧ bs <+: pkg) ∧
    ∀ i x, s.over[i]? = some x → x.result ≠ .panicked ∧ (x.result = .ok → Due A (l :: ls) i x.event x.bytes) := by
  have hi := fail_inv h hc
  refine ⟨began_wire hi, fun i e bs hb => ?_, fun i x hx => ?_⟩
  · obtain ⟨g1, g2⟩ := began_mem hi hb
    exact ⟨_, due_spec g1, g2⟩
  · obtain ⟨g1, g2, g3, g4⟩ := hi.past i x hx
    refine ⟨g4, fun hr => ?_⟩
    rw [g3 hr]
    exact due_spec g1

/-- **C88, polls.** A poll of the emit that has the connection adds to the wire. Afterwards the emit still has the connection, and if the socket was ready then bytes have gone; or it is over, with `Ok`, or with an error
that is among the answers of the socket to this poll (`WriteZero` if it took nothing). This holds as well after earlier emits have failed. -/
theorem C88_poll (h : failSteps A (failStart (l :: ls)) ops = some s) (hc : ∀ e, .emit e ∈ ops → (Link.Kind.layered A l ls).carries e) {e : Event} {st : Stage} (hcur : s.cur = some (e, st)) (as : List IoAns) :
    ∃ s', failStep A s (.poll as) = some s' ∧ s.wire A <+: s'.wire A ∧
      ((s'.over = s.over ∧ (∃ st', s'.cur = some (e, st')) ∧ ((∃ n more, as = .ready (n + 1) :: more) → (s.wire A).length < (s'.wire A).length)) ∨
       (s'.cur = none ∧ ∃ x, s'.over = s.over ++ [x] ∧ x.event = e ∧ (x.result = .ok ∨ ∃ err, x.result = .error err ∧ (.fail err ∈ as ∨ (err = .writeZero ∧ .ready 0 ∈ as))))) := by
  obtain ⟨s', h1, -, h3, h4⟩ := finv_poll (fail_inv h hc) hcur as
  exact ⟨s', h1, h3, h4⟩

/-- **C88, nonces.** Also if emits fail: each layer encrypts one package for each emit, under its own key, with consecutive numbers, so no nonce is used twice for the first 2^64 of them. -/
theorem C88_nonces (h : failSteps A (failStart (l :: ls)) ops = some s) (hc : ∀ e, .emit e ∈ ops → (Link.Kind.layered A l ls).carries e) (k : Nat) (L : Layer) (hk : (l :: ls)[k]? = some L) :
    ∃ new, (logs (l :: ls).length s.w)[k]? = some (L.log ++ new) ∧ s.over.length ≤ new.length ∧ new.length ≤ (began A s).length ∧
      (∀ (j : Nat) (x : Encryption), new[j]? = some x → x.key = L.key ∧ Nonce (L.start + j) x.nonce) ∧ (new.length ≤ 2 ^ 64 → (new.map Encryption.nonce).Nodup) := by
  have hi := fail_inv h hc
  obtain ⟨hi1, hi2, hi3⟩ := logged_sends A (l :: ls)
  have key : ∃ j, LoggedAt s.over.length j (l :: ls) s.w ∧ j ≤ (began A s).length := by
    cases hcur : s.cur with
    | none => exact ⟨_, hi1 (hi.free hcur).1, by simp [began]⟩
    | some y =>
      obtain ⟨e, st⟩ := y
      obtain ⟨-, part, r, g, -⟩ := hi.held e st hcur
      refine ⟨s.over.length + 1, ?_, by simp [began, hcur]⟩
      cases st with
      | writing rem => exact hi2 g
      | flushing => exact hi3 g
  obtain ⟨j, h1, h2⟩ := key
  obtain ⟨lg, m, g1, g2, g3, new, g4, g5, g6⟩ := loggedAt_logs h1 k L hk
  have hn : ∀ (j : Nat) (x : Encryption), new[j]? = some x → x.key = L.key ∧ Nonce (L.start + j) x.nonce := by
    intro j x hx
    obtain ⟨k1, k2⟩ := g6 j x hx
    exact ⟨k1, by rw [k2]; exact nonce_spec _⟩
  refine ⟨new, by rw [g1, g4], by omega, by omega, hn, fun hle => ?_⟩
  rw [List.Nodup, List.pairwise_iff_getElem]
  intro a b ha hb hab heq
  rw [List.length_map] at ha hb
  simp only [List.getElem_map] at heq
  rw [(g6 a _ (List.getElem?_eq_getElem ha)).2, (g6 b _ (List.getElem?_eq_getElem hb)).2] at heq
  have := congrArg UInt64.toNat (nonceFromNumber_inj heq)
  simp only [UInt64.toNat_ofNat'] at this
  omega

theorem flatten_prefix {α : Type} : ∀ {a b : List (List α)}, a <+: b → a.flatten <+: b.flatten := by
  rintro a _ ⟨c, rfl⟩
  rw [List.flatten_append]
  exact List.prefix_append _ _

/-- **C88, before a failure.** If the first `j` emits have returned `Ok`, their packages are on the wire, complete and first. -/
theorem C88_before (h : failSteps A (failStart (l :: ls)) ops = some s) (hc : ∀ e, .emit e ∈ ops → (Link.Kind.layered A l ls).carries e) (j : Nat) (hj : j ≤ s.over.length)
    (hok : ∀ i x, i < j → s.over[i]? = some x → x.result = .ok) :
    ∃ pkgs, NestedEvents A (l :: ls) 0 (((began A s).map Prod.fst).take j) pkgs ∧ pkgs <+: s.wire A := by
  have hi := fail_inv h hc
  have key : ∀ (n i : Nat), i + n ≤ s.over.length → (∀ m x, m < i + n → s.over[m]? = some x → x.result = .ok) →
      NestedEvents A (l :: ls) i (((s.over.drop i).take n).map EmitOver.event) (((s.over.drop i).take n).map EmitOver.bytes).flatten := by
    intro n
    induction n with
    | zero => intro i _ _; simp [NestedEvents]
    | succ n ih =>
      intro i hle hm
      have hlt : i < s.over.length := by omega
      have hx := List.getElem?_eq_getElem hlt
      rw [List.drop_eq_getElem_cons hlt, List.take_succ_cons, List.map_cons, List.map_cons, List.flatten_cons]
      obtain ⟨g1, g2, g3, -⟩ := hi.past i _ hx
      have hb := g3 (hm i _ (by omega) hx)
      obtain ⟨f, k1, k2⟩ := due_spec (A := A) (l := l) (i := i) g1
      rw [← hb] at k2
      exact ⟨f, _, _, k1, k2, rfl, ih (i + 1) (by omega) fun m x hlt hx => hm m x (by omega) hx⟩
  have hk := key j 0 (by omega) fun m x hm hx => hok m x (by omega) hx
  rw [List.drop_zero] at hk
  have hfst : ((began A s).map Prod.fst).take j = (s.over.take j).map EmitOver.event := by
    unfold began
    rw [List.map_append, List.take_append_of_le_length (by simpa using hj), List.map_map, ← List.map_take]
    rfl
  rw [hfst]
  refine ⟨_, hk, ?_⟩
  rw [(C88_wire h hc).1]
  unfold began
  rw [List.map_append, List.map_map, List.flatten_append]
  refine (flatten_prefix (b := s.over.map EmitOver.bytes) ?_).trans (List.prefix_append _ _)
  exact List.IsPrefix.map _ (List.take_prefix _ _)

/-- **C88, reading.** The peer has the same layers and receives a beginning of the wire, in pieces of any size. If of the wire only that deciphers which the innermost layer has encrypted, each package with its own number, then it
reads exactly the events whose packages have arrived one after the other from the first on. If a whole package follows (by its length), the next read gives an error (`InvalidData`); else it waits, or, at the end of the
stream, gives `UnexpectedEof`. -/
theorem C88_read (h : failSteps A (failStart (l :: ls)) ops = some s) (hc : ∀ e, .emit e ∈ ops → (Link.Kind.layered A l ls).carries e) {x : Layer} (hx : (l :: ls).getLast? = some x)
    (unforged : ∀ (i : Nat) (nonce c q : Bytes), i ≤ (began A s).length → Nonce (x.start + i) nonce → c <:+: s.wire A → A.dec x.key nonce c = some q →
      ∃ e bs pkg, (began A s)[i]? = some (e, bs) ∧ Due A (l :: ls) i e pkg ∧ c = pkg.drop 4)
    (sc : Script) (hsc : scriptBytes sc <+: s.wire A) (checks : Bool) (fuel : Nat) (hf : (began A s).length < fuel) :
    ∃ k pkgs rest o, k ≤ (began A s).length ∧ scriptBytes sc = pkgs ++ rest ∧ NestedEvents A (l :: ls) 0 (((began A s).map Prod.fst).take k) pkgs ∧
      (∀ k' pkgs', k' ≤ (began A s).length → NestedEvents A (l :: ls) 0 (((began A s).map Prod.fst).take k') pkgs' → pkgs' <+: scriptBytes sc → k' ≤ k) ∧
      readLoop (source (layersR A (l :: ls).length)) checks fuel (startR sc (l :: ls)) = (((began A s).map Prod.fst).take k, o) ∧
      (NoPackage rest → o = if sc.closed then .err (.io .unexpectedEof) else .hang) ∧ (¬ NoPackage rest → o = .err (.io .invalidData)) := by
  have hi := fail_inv h hc
  have hcar : ∀ e ∈ (began A s).map Prod.fst, Carry ls e := by
    intro e he
    obtain ⟨⟨e', bs⟩, h1, rfl⟩ := List.mem_map.1 he
    obtain ⟨i, h2⟩ := List.mem_iff_getElem?.1 h1
    exact (began_mem hi h2).1
  obtain ⟨k, b', h1, h2, h3, av, h4, h5⟩ := read_until A l ls sc.closed checks hx (s.wire A) ((began A s).map Prod.fst) (by
      intro n c q hn hcw hd
      obtain ⟨e, bs, pkg, g1, g2, g3⟩ := unforged n _ c q (by simpa using hn) (nonce_spec _) hcw hd
      refine ⟨e, by rw [List.getElem?_map, g1]; rfl, ?_⟩
      rw [g3, due_unique g2 (due_spec (began_mem hi g1).1)])
    ((began A s).map Prod.fst) 0 (startR sc (l :: ls)) (scriptBytes sc) fuel rfl (Nat.zero_le _) (by simpa using hf) hcar hsc.isInfix (receives_start A sc (l :: ls))
  refine ⟨k, _, b', _, by simpa using h1, h2, nestedEvents_wraps A l ls _ 0 fun e he => hcar e (List.mem_of_mem_take he), ?_, h5, fun hn => ?_, fun hn => ?_⟩
  · intro k' pkgs' hk' hp hpre
    by_cases hlt : k' ≤ k
    · exact hlt
    · exfalso
      have hkl : k < ((began A s).map Prod.fst).length := by rw [List.length_map]; omega
      refine h3 _ (List.getElem?_eq_getElem hkl) ?_
      have hp' := nestedEvents_unique hp (nestedEvents_wraps A l ls _ 0 fun e he => hcar e (List.mem_of_mem_take he))
      have hsplit : ((began A s).map Prod.fst).take k' = ((began A s).map Prod.fst).take k ++ (((began A s).map Prod.fst)[k] :: ((((began A s).map Prod.fst).take k').drop (k + 1))) := by
        have h6 := (List.take_append_drop k (((began A s).map Prod.fst).take k')).symm
        rw [List.take_take, Nat.min_eq_left (by omega)] at h6
        rw [h6]
        congr 1
        have hl : k < (((began A s).map Prod.fst).take k').length := by rw [List.length_take]; omega
        rw [← h6, List.drop_eq_getElem_cons hl, List.getElem_take]
      rw [hsplit, wraps_append, List.length_take, Nat.min_eq_left (by omega)] at hp'
      rw [hp', h2] at hpre
      have := (List.prefix_append_right_inj _).1 hpre
      exact (List.prefix_append _ _).trans this
  · rw [h4.2 hn]
    simp [stops]
  · have : av ≠ none := fun h => hn (h4.1 h)
    simp [stops, this]

/-- (A user would expect that an event whose emit has returned `Ok` arrives, or that after an error all further emits fail.) Once emit number `j` has failed in the middle, so that what is on the wire does not begin with the
packages up to its own, the peer reads none of the events from there on, whatever the later emits have returned. -/
theorem C88_violated_after (h : failSteps A (failStart (l :: ls)) ops = some s) (hc : ∀ e, .emit e ∈ ops → (Link.Kind.layered A l ls).carries e) {x : Layer} (hx : (l :: ls).getLast? = some x)
    (unforged : ∀ (i : Nat) (nonce c q : Bytes), i ≤ (began A s).length → Nonce (x.start + i) nonce → c <:+: s.wire A → A.dec x.key nonce c = some q →
      ∃ e bs pkg, (began A s)[i]? = some (e, bs) ∧ Due A (l :: ls) i e pkg ∧ c = pkg.drop 4)
    (j : Nat) (torn : ∀ pkgs, NestedEvents A (l :: ls) 0 (((began A s).map Prod.fst).take (j + 1)) pkgs → ¬ pkgs <+: s.wire A)
    (sc : Script) (hsc : scriptBytes sc <+: s.wire A) (checks : Bool) (fuel : Nat) (hf : (began A s).length < fuel) :
    (readLoop (source (layersR A (l :: ls).length)) checks fuel (startR sc (l :: ls))).1 <+: ((began A s).map Prod.fst).take j := by
  obtain ⟨k, pkgs, rest, o, h1, h2, h3, -, h4, -⟩ := C88_read h hc hx unforged sc hsc checks fuel hf
  rw [h4]
  have hkj : k ≤ j := by
    by_cases hle : k ≤ j
    · exact hle
    · exfalso
      obtain ⟨m, t, g1, g2⟩ := nestedEvents_take h3 (j + 1)
      rw [List.take_take, Nat.min_eq_left (by omega)] at g1
      refine torn m g1 (List.IsPrefix.trans ⟨t ++ rest, ?_⟩ hsc)
      rw [h2, ← g2, List.append_assoc]
  exact List.take_prefix_take_left hkj

end

/-! ### Cases -/

/-- The first event is sent; the emit of the second fails after 5 bytes; the third is sent, and its emit returns `Ok`. -/
def opsFail : List FailOp := [.emit ev1, .poll [.ready 30, .pending], .poll [.ready 5000, .ready 1], .emit ev2, .poll [.ready 5, .fail .other], .emit ev3, .poll [.ready 5000, .ready 1]]

/-- The layers of the example. -/
abbrev failLayers : List Layer := [{ key := [5] }, { key := [9], start := 2 }]

def demoFail : Option (FState failLayers.length) := failSteps toyAead (failStart failLayers) opsFail

/-- What is due for the emits of the example. -/
def dueFail (i : Nat) (e : Event) : Bytes := due toyAead { key := [5] } [{ key := [9], start := 2 }] i e

example : (dueFail 0 ev1).length = 70 ∧ (dueFail 1 ev2).length = 110 ∧ (dueFail 2 ev3).length = 69 := by decide +kernel

def wireFail : Bytes := dueFail 0 ev1 ++ (dueFail 1 ev2).take 5 ++ dueFail 2 ev3

theorem run_opsFail : ∃ s, demoFail = some s ∧ s.wire toyAead = wireFail ∧ began toyAead s = [(ev1, dueFail 0 ev1), (ev2, (dueFail 1 ev2).take 5), (ev3, dueFail 2 ev3)] ∧
    s.over.map EmitOver.result = [.ok, .error .other, .ok] := by
  have h : (demoFail.map fun s => (s.wire toyAead, began toyAead s, s.over.map EmitOver.result)) =
      some (wireFail, [(ev1, dueFail 0 ev1), (ev2, (dueFail 1 ev2).take 5), (ev3, dueFail 2 ev3)], [.ok, .error .other, .ok]) := by
    decide +kernel
  obtain ⟨s, h1, h2⟩ := Option.map_eq_some_iff.1 h
  simp only [Prod.mk.injEq] at h2
  exact ⟨s, h1, h2.1, h2.2.1, h2.2.2⟩

theorem carries_opsFail : ∀ e, .emit e ∈ opsFail → (Link.Kind.layered toyAead { key := [5] } [{ key := [9], start := 2 }]).carries e := by
  intro e he
  simp only [opsFail, List.mem_cons, FailOp.emit.injEq, reduceCtorEq, List.not_mem_nil, or_false, false_or] at he
  rcases he with rfl | rfl | rfl <;> exact ⟨by decide, by decide⟩

/-- Nothing of this wire deciphers but what the innermost layer has encrypted. -/
theorem unforged_opsFail {s : FState failLayers.length} (hb : began toyAead s = [(ev1, dueFail 0 ev1), (ev2, (dueFail 1 ev2).take 5), (ev3, dueFail 2 ev3)]) (i : Nat) (nonce c q : Bytes)
    (hi : i ≤ (began toyAead s).length) (hno : Nonce (2 + i) nonce) (hc : c <:+: wireFail) (hd : toyAead.dec [9] nonce c = some q) :
    ∃ e bs pkg, (began toyAead s)[i]? = some (e, bs) ∧ Due toyAead failLayers i e pkg ∧ c = pkg.drop 4 := by
  rw [hb] at hi ⊢
  simp only [List.length_cons, List.length_nil] at hi
  obtain ⟨a, b, ha, hb, hab⟩ := infix_cut hc
  obtain ⟨h1, h2⟩ := toy_nonce (by omega) hno hd
  have hnl : nonce.length = 12 := by
    obtain ⟨nb, k1, k2⟩ := hno
    have := k1.1
    rw [k2]; simp; omega
  have h12 : c.take 12 = (wireFail.drop a).take 12 := by
    have := congrArg List.length h1
    rw [hnl, List.length_take, hab, List.length_take] at this
    rw [hab, List.take_take, Nat.min_eq_left (by omega)]
  have hlen : wireFail.length = 144 := by decide +kernel
  have h8 : c.take 8 = (wireFail.drop a).take 8 := by
    have := congrArg (List.take 8) h12
    simpa [List.take_take] using this
  have hz : ((wireFail.drop a).take 12).drop 8 = (wireFail.drop a).take 4 := by
    obtain ⟨nb, k1, k2⟩ := hno
    have h4 := congrArg (List.take 4) h12
    rw [List.take_take, show min 4 12 = 4 from rfl] at h4
    rw [List.take_take, show min 4 12 = 4 from rfl] at h4
    rw [← h4, ← h12, h1, k2, List.drop_left' k1.1]
    have h5 := congrArg (List.take 4) (h1.trans k2)
    rw [List.take_take, show min 4 12 = 4 from rfl, List.take_append_of_le_length (by have := k1.1; omega)] at h5
    exact h5.symm
  have hpos : ∀ a < 145, (beVal ((wireFail.drop a).take 8) < 2 ∨ 5 < beVal ((wireFail.drop a).take 8) ∨ ((wireFail.drop a).take 12).drop 8 ≠ (wireFail.drop a).take 4) ∨
      ∀ b < 145, toyAead.dec [9] ((wireFail.drop a).take 12) ((wireFail.drop a).take b) = none ∨
        (beVal ((wireFail.drop a).take 8) = 2 ∧ (wireFail.drop a).take b = (dueFail 0 ev1).drop 4) ∨ (beVal ((wireFail.drop a).take 8) = 4 ∧ (wireFail.drop a).take b = (dueFail 2 ev3).drop 4) := by
    decide +kernel
  have hcar := carries_opsFail
  rcases hpos a (by omega) with hp | hp
  · exfalso
    rw [← h8, ← h2, ← h12] at hp
    rcases hp with hp | hp | hp
    · omega
    · omega
    · rw [h12] at hp; exact hp hz
  · have hp := hp b (by omega)
    rw [← h8, ← h2, ← h12, ← hab, h1, hd] at hp
    rcases hp with hp | ⟨hp, hq⟩ | ⟨hp, hq⟩
    · cases hp
    · obtain rfl : i = 0 := by omega
      exact ⟨ev1, _, _, rfl, due_spec (hcar ev1 (by simp [opsFail])), hq⟩
    · obtain rfl : i = 2 := by omega
      exact ⟨ev3, _, _, rfl, due_spec (hcar ev3 (by simp [opsFail])), hq⟩

/-- The emit of the third event has returned `Ok`, but whatever part of the wire the peer receives, and in whatever pieces, it never reads the third event; nor the second. -/
example : ∃ s, demoFail = some s ∧ s.over.map EmitOver.result = [.ok, .error .other, .ok] ∧ ∀ (sc : Script) (checks : Bool) (fuel : Nat), scriptBytes sc <+: s.wire toyAead → 3 < fuel →
    (readLoop (source (layersR toyAead failLayers.length)) checks fuel (startR sc failLayers)).1 <+: [ev1] := by
  obtain ⟨s, h1, h2, h3, h4⟩ := run_opsFail
  refine ⟨s, h1, h4, fun sc checks fuel hsc hf => ?_⟩
  have hlen : (began toyAead s).length = 3 := by rw [h3]; rfl
  have := C88_violated_after (l := { key := [5] }) (ls := [{ key := [9], start := 2 }]) h1 carries_opsFail (x := { key := [9], start := 2 }) rfl (by
      intro i nonce c q hi hno hc hd
      rw [h2] at hc
      exact unforged_opsFail h3 i nonce c q hi hno hc hd) 1 ?_ sc hsc checks fuel (by rw [hlen]; exact hf)
  · rw [h3] at this
    exact this
  · intro pkgs hp hpre
    rw [h3] at hp
    have hp' := nestedEvents_unique hp (nestedEvents_wraps toyAead { key := [5] } [{ key := [9], start := 2 }] _ 0 (by
      intro e he
      refine carries_opsFail e ?_
      simp only [List.map_cons, List.map_nil, List.take_succ_cons, List.take_zero, List.mem_cons, List.not_mem_nil, or_false] at he
      rcases he with rfl | rfl <;> simp [opsFail]))
    rw [hp', h2] at hpre
    revert hpre
    decide +kernel

/-- It reads the first event and waits: what has come is less than the package that it expects. When another event has been sent, it gets an error. -/
example : (demoFail.map fun s => readLoop (source (layersR toyAead failLayers.length)) false 9 (startR { chunks := [.data 0 ((s.wire toyAead).drop 1)], closed := false } failLayers)) =
    some ([ev1], .hang) := by decide +kernel
example : ((failSteps toyAead (failStart failLayers) (opsFail ++ [.emit ev3, .poll [.ready 5000, .ready 1]])).map fun s =>
      readLoop (source (layersR toyAead failLayers.length)) false 9 (startR { chunks := [.data 0 ((s.wire toyAead).drop 1)], closed := false } failLayers)) =
    some ([ev1], .err (.io .invalidData)) := by decide +kernel

/-- After the failed emit, another one that has the connection, as in `C88_poll`, and its poll. -/
def opsFail5 : List FailOp := [.emit ev1, .poll [.ready 5, .fail .other], .emit ev3, .poll [.ready 30, .pending]]

example : ((failSteps toyAead (failStart failLayers) opsFail5).map fun s => (s.cur.map Prod.fst, (began toyAead s).map fun x => x.2.length)) = some (some ev3, [5, 30]) := by decide +kernel
example : ((failSteps toyAead (failStart failLayers) (opsFail5 ++ [.poll [.ready 0]])).map fun s => (s.cur.map Prod.fst, s.over.map EmitOver.result)) = some (none, [.error .other, .error .writeZero]) := by
  decide +kernel
example : ((failSteps toyAead (failStart failLayers) (opsFail5 ++ [.poll [.ready 10]])).map fun s => (s.cur.map Prod.fst, (began toyAead s).map fun x => x.2.length)) = some (some ev3, [5, 40]) := by
  decide +kernel

end Bromine.Props
