import Verif.Lemmas.LayerAttack
import Verif.Spec.LayerAttack
import Verif.Props.LayerPeer
import Verif.Props.CryptAttack
import Verif.Lemmas.DropLink
/-
C84: what an attacker can achieve against encrypted layers.
-/
namespace Bromine.Props
open Bromine CryptIO Layers Spec
open Bromine.Handshake (DH Keys toyDH)

/-- The plaintext of number `i` is the frame of an event with `P`. -/
def MadeFrames (P : Nat → Event → Prop) (i : Nat) (p : Bytes) : Prop := ∃ e, P i e ∧ FrameLayout e [0, 9, 0] [] p

theorem packages_pieces {A : Aead} {key : Bytes} : ∀ {plains : List Bytes} {j : Nat} {bs : Bytes}, Packages A key j plains bs → ∀ (i : Nat) (p : Bytes), plains[i]? = some p →
    ∃ nonce c, Nonce (j + i) nonce ∧ c <:+: bs ∧ A.dec key nonce c = some p := by
  intro plains
  induction plains with
  | nil => intro j bs _ i p h; cases h
  | cons m ms ih =>
    rintro j bs ⟨pkg, rest, ⟨nonce, cipher, lb, h1, h2, h3, rfl⟩, rfl, h4⟩ i p hi
    cases i with
    | zero =>
      simp only [List.getElem?_cons_zero, Option.some.injEq] at hi
      subst hi
      exact ⟨nonce, cipher, h1, ⟨lb, rest, rfl⟩, (A.dec_iff _ _ _ _).2 h2⟩
    | succ i =>
      obtain ⟨nonce', c, g1, g2, g3⟩ := ih h4 i p (by simpa using hi)
      exact ⟨nonce', c, by rw [show j + (i + 1) = j + 1 + i by omega]; exact g1, g2.trans (List.suffix_append _ _).isInfix, g3⟩

/-- Packages that only the sender can make are the sender's. -/
theorem only_made {A : Aead} {key bs pkgs : Bytes} {plains : List Bytes} {made : Nat → Bytes → Prop} {N : Nat} (hu : OnlyMade A key bs made) (hN : ∀ i p, made i p → i < N) (hb : N < 2 ^ 64) (hp : Packages A key 0 plains pkgs) (hi : pkgs <:+: bs) :
    ∀ (i : Nat) (p : Bytes), plains[i]? = some p → made i p := by
  have h : ∀ (i : Nat) (p : Bytes), i < 2 ^ 64 → plains[i]? = some p → made i p := by
    intro i p hb hp'
    obtain ⟨nonce, c, g1, g2, g3⟩ := packages_pieces hp i p hp'
    rw [Nat.zero_add] at g1
    exact hu i nonce c p hb g1 (g2.trans hi) g3
  intro i p hp'
  refine h i p ?_ hp'
  have hl : plains.length ≤ N := by
    rcases Nat.lt_or_ge N plains.length with hl | hl
    · exact absurd (hN _ _ (h N plains[N] hb (List.getElem?_eq_getElem hl))) (by omega)
    · exact hl
  have := (List.getElem?_eq_some_iff.1 hp').1
  omega

/-- So they hold events. -/
theorem made_frames {P : Nat → Event → Prop} (hs : ∀ i e, P i e → Small e) : ∀ {plains : List Bytes} {j : Nat}, (∀ (i : Nat) (p : Bytes), plains[i]? = some p → MadeFrames P (j + i) p) →
    ∃ es : List Event, (∀ e ∈ es, Small e) ∧ (∀ (i : Nat) (e : Event), es[i]? = some e → P (j + i) e) ∧ plains.flatten = framesOf es := by
  intro plains
  induction plains with
  | nil => intro j _; exact ⟨[], by simp, by simp, rfl⟩
  | cons p plains ih =>
    intro j h
    obtain ⟨e, h1, h2⟩ := h 0 p rfl
    rw [Nat.add_zero] at h1
    obtain ⟨es, g1, g2, g3⟩ := ih (j := j + 1) fun i p hp => by
      have := h (i + 1) p (by simpa using hp)
      rwa [show j + (i + 1) = j + 1 + i by omega] at this
    have hsm := hs j e h1
    refine ⟨e :: es, by simpa using ⟨hsm, g1⟩, fun i e' hi => ?_, ?_⟩
    · cases i with
      | zero =>
        simp only [List.getElem?_cons_zero, Option.some.injEq] at hi
        subst hi
        exact h1
      | succ i =>
        have := g2 i e' (by simpa using hi)
        rwa [show j + 1 + i = j + (i + 1) by omega] at this
    · rw [List.flatten_cons, framesOf_cons, g3, frameLayout_unique h2 (frame_layout hsm)]

theorem prefix_of_positions {es sent : List Event} (h : ∀ (i : Nat) (e : Event), es[i]? = some e → sent[i]? = some e) : es <+: sent := by
  rw [List.prefix_iff_eq_take]
  apply List.ext_getElem?
  intro i
  rw [List.getElem?_take]
  split
  · rename_i hi
    rw [List.getElem?_eq_getElem hi, h i _ (List.getElem?_eq_getElem hi)]
  · rename_i hi
    exact List.getElem?_eq_none (by omega)

section
variable (A : Aead) (D : DH) (x : Exchange) (xs : List Exchange) (sc : Script) (ps : List (List IoAns))

theorem server_attacked (hs : ExchangeSized (x :: xs)) {w : WState (x :: xs).length} {r : RState (x :: xs).length} (hd : serverRuns A D (x :: xs) sc ps = .done w r) {P : Nat → Event → Prop} {N : Nat} (hN : ∀ i e, P i e → i < N) (hb : N < 2 ^ 64)
    (hsm : ∀ i e, P i e → Small e) (hu : ∀ key read, ServerReads A D (scriptBytes sc) x xs key read → OnlyMade A x.fresh read (MadeFrames P)) (checks : Bool) (fuel : Nat) (hf : N < fuel) :
    ∃ es o, readLoop (source (layersR A (x :: xs).length)) checks fuel r = (es, o) ∧ (∀ (i : Nat) (e : Event), es[i]? = some e → P i e) ∧ EndsWith sc.closed o := by
  rcases server_any A D (x :: xs) sc ps hs with ⟨b, s, h, -⟩ | ⟨w', r', h, ks, S, V, I, -, h2, -⟩ | ⟨e, k, h, -⟩
  · rw [h] at hd; cases hd
  · rw [h] at hd
    cases hd
    have F : OnlyFrames (R := layersR A xs.length) (A := A) (closed := sc.closed) V P := by
      refine ⟨?_, fun h => I.calm h⟩
      intro s h hv
      obtain ⟨q, hq, hr⟩ := I.hears hv
      cases ks with
      | nil => exact hq.elim
      | cons key ks =>
        obtain ⟨came, rest, read, pkgs, part, plains, g1, g2, g3, g4, rfl, g5, g6⟩ := hq
        obtain ⟨-, rfl, -⟩ := hr
        have := only_made (hu key _ ⟨ks, came, rest, g1, g2, g3, g4⟩) (fun i p ⟨e, he, _⟩ => hN i e he) hb g5 (List.prefix_append _ _).isInfix
        obtain ⟨es, i1, i2, i3⟩ := made_frames hsm (plains := plains) (j := 0) (by simpa using this)
        exact ⟨es, i1, by simpa using i2, by rw [← i3, g6]⟩
    obtain ⟨es, o, j1, j2, j3⟩ := F.loop checks hN fuel (done := []) (s := r) (by simp) h2 (by simpa using hf)
    exact ⟨es, o, j1, by simpa using j2, j3⟩
  · rw [h] at hd; cases hd

theorem client_attacked (hl : 68 + 20 * (x :: xs).length < 2 ^ 32) {w : WState (x :: xs).length} {r : RState (x :: xs).length} (hd : clientRuns A D (x :: xs) sc ps = .done w r) {P : Nat → Event → Prop} {N : Nat} (hN : ∀ i e, P i e → i < N) (hb : N < 2 ^ 64)
    (hsm : ∀ i e, P i e → Small e) (hx : x.fresh.length = 32)
    (hk : ∀ key read, ClientReads A D (scriptBytes sc) x xs key read → OnlyMade A (D.dh x.client.secret key) read fun i p => i = 0 ∧ p = x.fresh)
    (hu : ∀ key read, ClientReads A D (scriptBytes sc) x xs key read → OnlyMade A x.fresh read (MadeFrames P)) (checks : Bool) (fuel : Nat) (hf : N < fuel) :
    ∃ es o, readLoop (source (layersR A (x :: xs).length)) checks fuel r = (es, o) ∧ (∀ (i : Nat) (e : Event), es[i]? = some e → P i e) ∧ EndsWith sc.closed o := by
  rcases client_any A D (x :: xs) sc ps hl with ⟨b, s, h, -⟩ | ⟨w', r', h, ss, S, V, I, -, h2, -⟩ | ⟨e, k, h, -⟩
  · rw [h] at hd; cases hd
  · rw [h] at hd
    cases hd
    have F : OnlyFrames (R := layersR A xs.length) (A := A) (closed := sc.closed) V P := by
      refine ⟨?_, fun h => I.calm h⟩
      intro s h hv
      obtain ⟨q, hq, hr⟩ := I.hears hv
      cases ss with
      | nil => exact hq.elim
      | cons session ss =>
        obtain ⟨key, came, rest, read, pkgs, pkgs', part, plains, plains', g1, g2, g3, g4, rfl, g5, g6, g7, g8, g9⟩ := hq
        obtain ⟨-, rfl, -⟩ := hr
        have hreads : ClientReads A D (scriptBytes sc) x xs key (pkgs ++ pkgs' ++ part) := ⟨ss, came, rest, g1, g2, g3, g4⟩
        have hkey := only_made (hk key _ hreads) (N := 1) (fun i p h => by omega) (by omega) g5 ⟨[], pkgs' ++ part, by simp⟩
        have hplains : plains = [x.fresh] := by
          cases plains with
          | nil =>
            have := g7.length_le
            rw [List.flatten_nil, List.length_nil] at this
            omega
          | cons p plains =>
            rw [(hkey 0 p rfl).2]
            cases plains with
            | nil => rfl
            | cons p' plains => exact absurd (hkey 1 p' rfl).1 (by simp)
        subst hplains
        have hses : session = x.fresh := by
          rw [List.flatten_singleton] at g7
          exact g7.eq_of_length (by omega)
        subst hses
        rw [List.flatten_singleton, List.append_cancel_left_eq] at g9
        have := only_made (hu key _ hreads) (fun i p ⟨e, he, _⟩ => hN i e he) hb g8 ⟨pkgs, part, rfl⟩
        obtain ⟨es, i1, i2, i3⟩ := made_frames hsm (plains := plains') (j := 0) (by simpa using this)
        exact ⟨es, i1, by simpa using i2, by rw [← i3, g9]⟩
    obtain ⟨es, o, j1, j2, j3⟩ := F.loop checks hN fuel (done := []) (s := r) (by simp) h2 (by simpa using hf)
    exact ⟨es, o, j1, by simpa using j2, j3⟩
  · rw [h] at hd; cases hd

/-- **C84, to the server.** A server has set up any number of encrypted layers in each other, and the bytes that it has received and will receive are chosen by somebody else, from the first on: he may hold the keys of all layers but the
outermost. He only cannot make packages of the outermost session: of what that layer can have read, only the sender's events decipher, each with its own number. Then the server delivers the
sender's events from the first on, in order, without repetition or gap, up to some point; there it ends with an error, or waits. -/
theorem C84_server_prefix (hs : ExchangeSized (x :: xs)) {w : WState (x :: xs).length} {r : RState (x :: xs).length} (hd : serverRuns A D (x :: xs) sc ps = .done w r) (sent : List Event) (hsm : ∀ e ∈ sent, Small e) (hn : sent.length < 2 ^ 64)
    (unforged : ∀ key read, ServerReads A D (scriptBytes sc) x xs key read → OnlyMade A x.fresh read fun i p => ∃ e, sent[i]? = some e ∧ FrameLayout e [0, 9, 0] [] p) (checks : Bool) (fuel : Nat) (hf : sent.length < fuel) :
    ∃ es o, readLoop (source (layersR A (x :: xs).length)) checks fuel r = (es, o) ∧ es <+: sent ∧ (o = .err (.io .invalidData) ∨ (o = .err (.io .unexpectedEof) ∧ sc.closed = true) ∨ o = .hang) := by
  obtain ⟨es, o, h1, h2, h3⟩ := server_attacked A D x xs sc ps hs hd (P := fun i e => sent[i]? = some e) (N := sent.length) (fun i e h => (List.getElem?_eq_some_iff.1 h).1) hn (fun i e h => hsm e (List.mem_of_getElem? h)) unforged checks fuel hf
  exact ⟨es, o, h1, prefix_of_positions h2, h3⟩

/-- **C84, to the client.** The same for a client. Here the packages under the secret that was agreed are needed too: of what the outermost layer can have read, only the package with the key that the server made deciphers under it. -/
theorem C84_client_prefix (hl : 68 + 20 * (x :: xs).length < 2 ^ 32) {w : WState (x :: xs).length} {r : RState (x :: xs).length} (hd : clientRuns A D (x :: xs) sc ps = .done w r) (sent : List Event) (hsm : ∀ e ∈ sent, Small e) (hn : sent.length < 2 ^ 64)
    (hx : x.fresh.length = 32) (agreed : ∀ key read, ClientReads A D (scriptBytes sc) x xs key read → OnlyMade A (D.dh x.client.secret key) read fun i p => i = 0 ∧ p = x.fresh)
    (unforged : ∀ key read, ClientReads A D (scriptBytes sc) x xs key read → OnlyMade A x.fresh read fun i p => ∃ e, sent[i]? = some e ∧ FrameLayout e [0, 9, 0] [] p) (checks : Bool) (fuel : Nat) (hf : sent.length < fuel) :
    ∃ es o, readLoop (source (layersR A (x :: xs).length)) checks fuel r = (es, o) ∧ es <+: sent ∧ (o = .err (.io .invalidData) ∨ (o = .err (.io .unexpectedEof) ∧ sc.closed = true) ∨ o = .hang) := by
  obtain ⟨es, o, h1, h2, h3⟩ := client_attacked A D x xs sc ps hl hd (P := fun i e => sent[i]? = some e) (N := sent.length) (fun i e h => (List.getElem?_eq_some_iff.1 h).1) hn (fun i e h => hsm e (List.mem_of_getElem? h)) hx agreed unforged checks fuel hf
  exact ⟨es, o, h1, prefix_of_positions h2, h3⟩

/-- C84, both directions, to the server: if the attacker may also use the server's own packages of the session (both directions have one key, and both count from 0), each event delivered is one that the client or the server itself has sent at
that place. -/
theorem C84_server_positions (hs : ExchangeSized (x :: xs)) {w : WState (x :: xs).length} {r : RState (x :: xs).length} (hd : serverRuns A D (x :: xs) sc ps = .done w r) (sent own : List Event) (hsm : ∀ e ∈ sent ++ own, Small e)
    (hn : sent.length + own.length < 2 ^ 64)
    (unforged : ∀ key read, ServerReads A D (scriptBytes sc) x xs key read → OnlyMade A x.fresh read fun i p => ∃ e, (sent[i]? = some e ∨ own[i]? = some e) ∧ FrameLayout e [0, 9, 0] [] p) (checks : Bool) (fuel : Nat) (hf : sent.length + own.length < fuel) :
    ∃ es o, readLoop (source (layersR A (x :: xs).length)) checks fuel r = (es, o) ∧ (∀ (i : Nat) (e : Event), es[i]? = some e → sent[i]? = some e ∨ own[i]? = some e) ∧
      (o = .err (.io .invalidData) ∨ (o = .err (.io .unexpectedEof) ∧ sc.closed = true) ∨ o = .hang) := by
  refine server_attacked A D x xs sc ps hs hd (P := fun i e => sent[i]? = some e ∨ own[i]? = some e) (N := sent.length + own.length) (fun i e h => ?_) hn (fun i e h => hsm e ?_) unforged checks fuel hf
  · rcases h with h | h <;> have := (List.getElem?_eq_some_iff.1 h).1 <;> omega
  · rw [List.mem_append]; exact h.imp List.mem_of_getElem? List.mem_of_getElem?

/-- C84, both directions, to the client. -/
theorem C84_client_positions (hl : 68 + 20 * (x :: xs).length < 2 ^ 32) {w : WState (x :: xs).length} {r : RState (x :: xs).length} (hd : clientRuns A D (x :: xs) sc ps = .done w r) (sent own : List Event) (hsm : ∀ e ∈ sent ++ own, Small e)
    (hn : sent.length + own.length < 2 ^ 64) (hx : x.fresh.length = 32) (agreed : ∀ key read, ClientReads A D (scriptBytes sc) x xs key read → OnlyMade A (D.dh x.client.secret key) read fun i p => i = 0 ∧ p = x.fresh)
    (unforged : ∀ key read, ClientReads A D (scriptBytes sc) x xs key read → OnlyMade A x.fresh read fun i p => ∃ e, (sent[i]? = some e ∨ own[i]? = some e) ∧ FrameLayout e [0, 9, 0] [] p) (checks : Bool) (fuel : Nat) (hf : sent.length + own.length < fuel) :
    ∃ es o, readLoop (source (layersR A (x :: xs).length)) checks fuel r = (es, o) ∧ (∀ (i : Nat) (e : Event), es[i]? = some e → sent[i]? = some e ∨ own[i]? = some e) ∧
      (o = .err (.io .invalidData) ∨ (o = .err (.io .unexpectedEof) ∧ sc.closed = true) ∨ o = .hang) := by
  refine client_attacked A D x xs sc ps hl hd (P := fun i e => sent[i]? = some e ∨ own[i]? = some e) (N := sent.length + own.length) (fun i e h => ?_) hn (fun i e h => hsm e ?_) hx agreed unforged checks fuel hf
  · rcases h with h | h <;> have := (List.getElem?_eq_some_iff.1 h).1 <;> omega
  · rw [List.mem_append]; exact h.imp List.mem_of_getElem? List.mem_of_getElem?

end

/-! ### Examples -/

/-- An ideal cipher, to show that the hypotheses can be met: what has been made with it is in a table, and has another tag than all that has not. -/
def idealTag (made : List (Bytes × Bytes × Bytes)) (k n p : Bytes) : Bytes := List.replicate 16 (if made.contains (k, n, p) then 253 else 254)

def idealAead (made : List (Bytes × Bytes × Bytes)) : Aead where
  enc k n p := some (idealTag made k n p ++ p)
  dec k n c := if c.take 16 = idealTag made k n (c.drop 16) then some (c.drop 16) else none
  dec_iff k n c p := by
    have hl : (idealTag made k n p).length = 16 := List.length_replicate
    simp only [Option.some.injEq]
    constructor
    · intro h
      split at h
      · rename_i ht
        injection h with h
        rw [← h, ← ht, List.take_append_drop]
      · cases h
    · intro h
      subst h
      have hd : (idealTag made k n p ++ p).drop 16 = p := by
        rw [List.drop_append_of_le_length (by omega), List.drop_of_length_le (by omega), List.nil_append]
      rw [hd, List.take_append_of_le_length (by omega), List.take_of_length_le (by omega), if_pos rfl]
  len k n p c h := by
    injection h with h
    subst h
    rw [List.length_append]
    simp [idealTag]
    omega
  total k n p _ := rfl

/-- Nothing else deciphers, in bytes in which the other tag does not occur. -/
theorem ideal_made {made : List (Bytes × Bytes × Bytes)} {k n c p bs : Bytes} (h : (idealAead made).dec k n c = some p) (hc : c.Sublist bs) (hb : bs.count 254 < 16) : (k, n, p) ∈ made := by
  have h' := ((idealAead made).dec_iff _ _ _ _).1 h
  simp only [idealAead, Option.some.injEq] at h'
  by_cases hm : made.contains (k, n, p) = true
  · simpa using hm
  · exfalso
    have : c.count 254 ≤ bs.count 254 := hc.count_le 254
    rw [← h', idealTag, if_neg hm, List.count_append, List.count_replicate_self] at this
    omega

/-- The session of the outer layer, and one event in it. -/
def exMade : List (Bytes × Bytes × Bytes) := [((exLayer 5).fresh, List.replicate 12 0, Wire.frame tinyEvent)]

def exOuterPkg : Bytes := Layers.pkg (idealAead exMade) { key := (exLayer 5).fresh } 0 (Wire.frame tinyEvent)

/-- What the inner layer deciphers: the key of the client in the outer layer, its event, and the same package again. -/
def exPlains : List Bytes := [toyDH.pub [5, 1], exOuterPkg, exOuterPkg]

/-- The attacker has the keys of the inner layer, and sends the package of the outer layer twice, in proper packages of the inner layer. -/
def exAttack : Bytes :=
  toyDH.pub [9, 1] ++ Layers.pkg (idealAead exMade) { key := (exLayer 9).fresh } 0 (exPlains.getD 0 []) ++ Layers.pkg (idealAead exMade) { key := (exLayer 9).fresh } 1 (exPlains.getD 1 []) ++ Layers.pkg (idealAead exMade) { key := (exLayer 9).fresh } 2 (exPlains.getD 2 [])

/-- The event is delivered once, then there is an error. -/
example : (match serverRuns (idealAead exMade) toyDH exLayers (exScript exAttack 40) (exPolls 9) with
    | .done _ r => some (readLoop (source (layersR (idealAead exMade) 2)) true 5 r)
    | _ => none) = some ([tinyEvent], .err (.io .invalidData)) := by decide +kernel

theorem nonce_zero {i : Nat} (hi : i < 2 ^ 64) (h : Nonce i (List.replicate 12 0)) : i = 0 := by
  obtain ⟨nb, h1, h2⟩ := h
  have hl := h1.1
  have h3 := congrArg (List.take 8) h2
  rw [List.take_append_of_le_length (by omega), List.take_of_length_le (l := nb) (by omega)] at h3
  have h4 := (bigEndian_iff.1 h1).2
  rw [← h3] at h4
  have : beVal (List.take 8 (List.replicate 12 0)) = 0 := by decide
  omega

theorem exMade_tiny {i : Nat} {nonce p k : Bytes} (hi : i < 2 ^ 64) (hn : Nonce i nonce) (h : (k, nonce, p) = ((exLayer 5).fresh, List.replicate 12 0, Wire.frame tinyEvent)) : ∃ e, [tinyEvent][i]? = some e ∧ FrameLayout e [0, 9, 0] [] p := by
  simp only [Prod.mk.injEq] at h
  obtain ⟨-, rfl, rfl⟩ := h
  rw [nonce_zero hi hn]
  exact ⟨tinyEvent, rfl, frame_layout small_tiny⟩

/-- The hypotheses of `C84_server_prefix` are met there. -/
example : ExchangeSized exLayers ∧ (serverRuns (idealAead exMade) toyDH exLayers (exScript exAttack 40) (exPolls 9)).isDone = true ∧
    ∀ key read, ServerReads (idealAead exMade) toyDH (scriptBytes (exScript exAttack 40)) (exLayer 5) [exLayer 9] key read →
      OnlyMade (idealAead exMade) (exLayer 5).fresh read fun i p => ∃ e, [tinyEvent][i]? = some e ∧ FrameLayout e [0, 9, 0] [] p := by
  refine ⟨⟨by decide, by decide⟩, by decide +kernel, ?_⟩
  rintro key read ⟨keys, came, rest, h1, h2, -, h3, -⟩ i nonce c p hi hn hc hd
  have hwire : scriptBytes (exScript exAttack 40) = toyDH.pub [9, 1] ++ (exAttack.drop 32) := by decide +kernel
  have hW : Packages (idealAead exMade) (exLayer 9).fresh 0 exPlains (exAttack.drop 32) := by
    refine ⟨_, _, package_pkg (idealAead exMade) { key := (exLayer 9).fresh } 0 (f := exPlains.getD 0 []) (by decide +kernel), ?_, _, _, package_pkg (idealAead exMade) { key := (exLayer 9).fresh } 1 (f := exPlains.getD 1 []) (by decide +kernel), rfl, _, _,
      package_pkg (idealAead exMade) { key := (exLayer 9).fresh } 2 (f := exPlains.getD 2 []) (by decide +kernel), rfl, rfl⟩
    decide +kernel
  match keys, h1 with
  | [], h1 => exact h1.elim
  | [k'], h1 =>
    obtain ⟨came', rest', read', pkgs, part, plains, ⟨z, g1⟩, g2, -, ⟨-, g3⟩, g4, g5, g6⟩ := h1
    have g3 := g3 rfl
    subst g3
    subst g4
    rw [hwire] at g1
    simp only [List.append_assoc] at g1
    obtain ⟨-, g1⟩ := List.append_inj g1 (by rw [g2]; decide)
    rw [← g1] at hW
    obtain ⟨more, e1, -⟩ := Link.packages_prefix g5 hW
    have hsub : c.Sublist exPlains.flatten := by
      rw [e1, List.flatten_append, g6]
      refine hc.sublist.trans (h3.trans ?_)
      rw [List.append_assoc, List.append_assoc]
      exact (List.sublist_append_left came _).trans (List.sublist_append_right key _)
    have := ideal_made hd hsub (by decide +kernel)
    simp only [exMade, List.mem_singleton] at this
    exact exMade_tiny hi hn this
  | k' :: k'' :: ks, ⟨_, _, _, _, _, _, g1, _⟩ => exact g1.elim

/-- For a client, with one layer: the secret that was agreed, with the key of the session, and an event in the session. -/
def exMade' : List (Bytes × Bytes × Bytes) := (toyDH.dh [5, 1] (toyDH.pub [5, 2]), List.replicate 12 0, (exLayer 5).fresh) :: exMade

/-- The attacker lets the key exchange pass, and replays the only event. -/
def exAttack' : Bytes :=
  toyDH.pub [5, 2] ++ Layers.pkg (idealAead exMade') { key := toyDH.dh [5, 1] (toyDH.pub [5, 2]) } 0 (exLayer 5).fresh ++
    Layers.pkg (idealAead exMade') { key := (exLayer 5).fresh } 0 (Wire.frame tinyEvent) ++ Layers.pkg (idealAead exMade') { key := (exLayer 5).fresh } 0 (Wire.frame tinyEvent)

example : (match clientRuns (idealAead exMade') toyDH [exLayer 5] (exScript exAttack' 40) (exPolls 9) with
    | .done _ r => some (readLoop (source (layersR (idealAead exMade') 1)) true 5 r)
    | _ => none) = some ([tinyEvent], .err (.io .invalidData)) := by decide +kernel

/-- The hypotheses of `C84_client_prefix` are met there. -/
example : (exLayer 5).fresh.length = 32 ∧ (clientRuns (idealAead exMade') toyDH [exLayer 5] (exScript exAttack' 40) (exPolls 9)).isDone = true ∧
    (∀ key read, ClientReads (idealAead exMade') toyDH (scriptBytes (exScript exAttack' 40)) (exLayer 5) [] key read →
      OnlyMade (idealAead exMade') (toyDH.dh (exLayer 5).client.secret key) read fun i p => i = 0 ∧ p = (exLayer 5).fresh) ∧
    ∀ key read, ClientReads (idealAead exMade') toyDH (scriptBytes (exScript exAttack' 40)) (exLayer 5) [] key read →
      OnlyMade (idealAead exMade') (exLayer 5).fresh read fun i p => ∃ e, [tinyEvent][i]? = some e ∧ FrameLayout e [0, 9, 0] [] p := by
  have hcount : ∀ key read c, ClientReads (idealAead exMade') toyDH (scriptBytes (exScript exAttack' 40)) (exLayer 5) [] key read → c <:+: read → c.Sublist (scriptBytes (exScript exAttack' 40)) := by
    rintro key read c ⟨sessions, came, rest, h1, -, -, h2, -⟩ hc
    match sessions, h1 with
    | [], h1 =>
      refine hc.sublist.trans (h2.trans (List.Sublist.trans ?_ (List.IsPrefix.sublist h1)))
      rw [List.append_assoc]
      exact (List.sublist_append_left came _).trans (List.sublist_append_right key _)
    | _ :: _, h1 => exact h1.elim
  have hb : (scriptBytes (exScript exAttack' 40)).count 254 < 16 := by decide +kernel
  refine ⟨by decide, by decide +kernel, fun key read hr i nonce c p hi hn hc hd => ?_, fun key read hr i nonce c p hi hn hc hd => ?_⟩
  · have := ideal_made hd (hcount key read c hr hc) hb
    have hkey : toyDH.dh (exLayer 5).client.secret key = toyDH.dh [5, 1] (toyDH.pub [5, 2]) := by
      obtain ⟨_, _, _, -, -, h, -⟩ := hr
      rcases h with h | ⟨q, h1, h2⟩
      · exact absurd h (by decide)
      · simp only [exLayer, List.mem_singleton] at h1
        subst h1
        exact (toyDH.same_dh _ _ _ h2).symm
    rw [hkey] at this
    simp only [exMade', exMade, List.mem_cons, List.not_mem_nil, or_false] at this
    rcases this with h | h
    · simp only [Prod.mk.injEq] at h
      obtain ⟨-, rfl, rfl⟩ := h
      exact ⟨nonce_zero hi hn, rfl⟩
    · exfalso
      simp only [Prod.mk.injEq] at h
      exact absurd h.1 (by decide +kernel)
  · have := ideal_made hd (hcount key read c hr hc) hb
    simp only [exMade', exMade, List.mem_cons, List.not_mem_nil, or_false] at this
    rcases this with h | h
    · exfalso
      simp only [Prod.mk.injEq] at h
      exact absurd h.1 (by decide +kernel)
    · exact exMade_tiny hi hn h

end Bromine.Props
