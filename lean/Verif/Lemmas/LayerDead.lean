import Verif.Lemmas.LayerLink
import Verif.Spec.LayerFail
import Verif.Spec.HandshakeErr
/-
Reading through encrypted layers, when the innermost layer does not decipher what comes.
-/
namespace Bromine.Layers
open Bromine CryptIO Spec

section
variable {ρ : Type} (R : ReadT ρ) (closed : Bool) (av : Option Bytes)

/-- The result of a poll that gives nothing. -/
inductive Silent (at_ : ρ → Prop) (r : ρ) : Poll Unit × Bytes × ρ → Prop
  | eof {r'} : av = none → closed = true → Silent at_ r (.ready (.ok ()), [], r')
  | ended {r'} : av = none → closed = true → Silent at_ r (.ready (.error .unexpectedEof), [], r')
  | error {r'} : av ≠ none → Silent at_ r (.ready (.error .invalidData), [], r')
  | pending {r'} : at_ r' → Waits R closed av r r' → Silent at_ r (.pending true, [], r')

/-- A transport that gives nothing any more: it fails, if there is something that does not decipher (`av ≠ none`); else it ends or waits. -/
structure Silences where
  at_ : ρ → Prop
  read : ∀ {r want}, at_ r → 0 < want → Silent R closed av at_ r (R.pollRead r want)

variable {R closed av}

/-- A layer around it gives nothing, either. -/
def Silences.layer (S : Silences R closed av) (A : Aead) : Silences (encryptedR R A) closed av where
  at_ s := s.1.remaining = [] ∧ (s.1.fut = none ∨ s.1.fut = some (.reading [])) ∧ S.at_ s.2
  read := by
    rintro ⟨⟨dec, rem, fut⟩, r⟩ want ⟨h1, h2, h3⟩ h0
    dsimp only at h1 h2 h3
    subst h1
    have hpoll : pollRead R A ({ dec := dec, fut := fut }, r) want = pollFutRead R A { dec := dec, fut := some (.reading []) } r want := by
      rcases h2 with rfl | rfl
      · simp [pollRead, h0]
      · simp [pollRead]
    change Silent _ _ _ _ _ (pollRead R A ({ dec := dec, fut := fut }, r) want)
    rw [hpoll]
    have hp := S.read h3 (show 0 < 4 by omega)
    unfold pollFutRead pollPackage fill
    simp only [List.length_nil, Nat.zero_lt_succ, if_true, Nat.sub_zero]
    rw [if_neg (by omega)]
    generalize R.pollRead r 4 = x at hp
    cases hp with
    | eof g g' => exact .ended g g'
    | ended g g' => exact .ended g g'
    | error g => exact .error g
    | pending g1 g2 => exact .pending ⟨rfl, .inr rfl, g1⟩ g2

/-- What reading an event ends with. -/
def stops (av : Option Bytes) (closed : Bool) {α : Type} : Outcome α :=
  if av ≠ none then .err (.io .invalidData) else if closed then .err (.io .unexpectedEof) else .hang

theorem Silences.event (S : Silences R closed av) {checks : Bool} {r : ρ} (h : S.at_ r) : Event.fromAsyncRead (source R) checks r = stops av closed := by
  have key : ∀ (fuel : Nat) (r : ρ), (av = none ∧ closed = false) ∨ size R r < fuel → S.at_ r → Layers.drive R true 8 fuel [] r = stops av closed := by
    intro fuel
    induction fuel with
    | zero =>
      intro r h _
      rcases h with ⟨h, h'⟩ | h
      · subst h h'; rfl
      · omega
    | succ fuel ih =>
      intro r hf he
      have hp := S.read he (show 0 < 8 by omega)
      unfold Layers.drive Layers.fill
      rw [if_neg (by simp)]
      simp only [List.length_nil, Nat.sub_zero]
      generalize R.pollRead r 8 = x at hp
      cases hp with
      | eof g g' => subst g g'; rfl
      | ended g g' => subst g g'; rfl
      | error g => simp [stops, g]
      | pending g1 g2 =>
        refine ih _ ?_ g1
        rcases g2 with g2 | ⟨g2, g2', -⟩
        · rcases hf with hf | hf
          · exact .inl hf
          · exact .inr (by omega)
        · exact .inl ⟨g2, g2'⟩
  have : (source R).readInt 8 r = stops av closed := key _ r (.inr (Nat.lt_succ_self _)) h
  unfold Event.fromAsyncRead
  rw [this]
  unfold stops
  split
  · rfl
  · cases closed <;> rfl

end

/-- The innermost layer: `acc` has been read of `p`, which does not decipher as number `k` if it is complete. -/
def innermost (A : Aead) (closed : Bool) (x : Layer) (k : Nat) (av : Option Bytes) (p : Bytes) (hp : complete p = true)
    (hd : av ≠ none → A.dec x.key (nonceFromNumber (UInt64.ofNat (x.start + k))) (p.drop 4) = none) : Silences (encryptedR socketR A) closed av where
  at_ s := ∃ acc p', s.1.dec = decAt x k ∧ s.1.remaining = [] ∧ ((s.1.fut = none ∧ acc = []) ∨ s.1.fut = some (.reading acc)) ∧ p = acc ++ p' ∧ (socketReceives closed).at_ k p' av s.2
  read := by
    rintro ⟨⟨dec, rem, fut⟩, r⟩ want ⟨acc, p', h1, h2, h3, h4, h5⟩ h0
    dsimp only at h1 h2 h3 h5
    subst h1 h2
    have hpoll : pollRead socketR A ({ dec := decAt x k, fut := fut }, r) want = pollFutRead socketR A { dec := decAt x k, fut := some (.reading acc) } r want := by
      rcases h3 with ⟨rfl, rfl⟩ | rfl
      · simp [pollRead, h0]
      · simp [pollRead]
    change Silent _ _ _ _ _ (pollRead socketR A ({ dec := decAt x k, fut := fut }, r) want)
    rw [hpoll]
    have hpk := (socketReceives closed).pollPackage h4 hp h5
    unfold pollFutRead
    dsimp only
    generalize Layers.pollPackage socketR acc r = y at hpk
    cases hpk with
    | fail g g' => exact .ended g g'
    | pending g1 g2 g3 g4 => exact .pending ⟨_, _, rfl, rfl, .inr rfl, g1, g3⟩ g4
    | done g1 g2 g3 =>
      have : av ≠ none := by rw [g1]; simp
      dsimp only [Decryptor.decrypt, decAt]
      rw [hd this]
      exact .error this

/-- The bytes begin with a whole package, or can be completed to one. -/
theorem some_package (b : Bytes) : (∃ p rest, b = p ++ rest ∧ complete p = true) ∨ (NoPackage b ∧ ∃ p z, b ++ z = p ∧ z ≠ [] ∧ complete p = true) := by
  by_cases h4 : b.length < 4
  · refine .inr ⟨?_, ?_⟩
    · intro lb c rest hb h
      have h1 := (bigEndian_iff.1 hb).1
      have := congrArg List.length h
      simp only [List.length_append] at this
      omega
    · let p4 := b ++ List.replicate (4 - b.length) 0
      have hl : p4.length = 4 := by simp only [p4, List.length_append, List.length_replicate]; omega
      refine ⟨p4 ++ List.replicate (beVal p4) 0, List.replicate (4 - b.length) 0 ++ List.replicate (beVal p4) 0, by simp [p4], ?_, ?_⟩
      · intro h
        have := congrArg List.length h
        simp only [List.length_append, List.length_replicate, List.length_nil] at this
        omega
      · refine complete_iff.2 ⟨by rw [List.length_append]; omega, ?_⟩
        rw [List.take_append_of_le_length (by omega), List.take_of_length_le (by omega), List.length_append, List.length_replicate, hl]
  · by_cases hn : 4 + beVal (b.take 4) ≤ b.length
    · refine .inl ⟨b.take (4 + beVal (b.take 4)), b.drop (4 + beVal (b.take 4)), (List.take_append_drop _ _).symm, complete_iff.2 ⟨by rw [List.length_take]; omega, ?_⟩⟩
      rw [List.take_take, Nat.min_eq_left (by omega), List.length_take]
      omega
    · refine .inr ⟨?_, ?_⟩
      · intro lb c rest hb h
        obtain ⟨h1, h2⟩ := bigEndian_iff.1 hb
        apply hn
        have ht : b.take 4 = lb := by rw [h, List.append_assoc, ← h1, List.take_left]
        rw [ht, ← h2, h]
        simp only [List.length_append]
        omega
      · refine ⟨b ++ List.replicate (4 + beVal (b.take 4) - b.length) 0, List.replicate (4 + beVal (b.take 4) - b.length) 0, rfl, ?_, complete_iff.2 ⟨by rw [List.length_append]; omega, ?_⟩⟩
        · intro h
          have := congrArg List.length h
          simp only [List.length_replicate, List.length_nil] at this
          omega
        · rw [List.take_append_of_le_length (by omega), List.length_append, List.length_replicate]
          omega

/-- All layers wait for package number `k`, and what comes does not decipher as this package in the innermost. -/
theorem dead_event (A : Aead) (closed : Bool) (k : Nat) (b : Bytes) : ∀ (l : Layer) (ls : List Layer) (x : Layer), (l :: ls).getLast? = some x →
    (∀ p rest, b = p ++ rest → complete p = true → A.dec x.key (nonceFromNumber (UInt64.ofNat (x.start + k))) (p.drop 4) = none) →
    ∃ av, (av = none ↔ NoPackage b) ∧ ∃ S : Silences (layersR A (l :: ls).length) closed av, ∀ r, (receives A closed (l :: ls)).idle k r b → S.at_ r := by
  intro l ls
  induction ls generalizing l with
  | nil =>
    intro x hx hd
    simp only [List.getLast?_singleton, Option.some.injEq] at hx
    subst hx
    rcases some_package b with ⟨p, rest, h1, h2⟩ | ⟨h0, p, z, h1, h2, h3⟩
    · refine ⟨some rest, ⟨(fun h => by cases h), fun h => ?_⟩, innermost A closed l k (some rest) p h2 (fun _ => hd p rest h1 h2), ?_⟩
      · exfalso
        obtain ⟨g1, g2⟩ := complete_iff.1 h2
        refine h (p.take 4) (p.drop 4) rest (bigEndian_iff.2 ⟨by rw [List.length_take]; omega, by rw [List.length_drop]; omega⟩) ?_
        rw [h1, List.take_append_drop]
      · rintro ⟨rs, r⟩ ⟨g1, g2, g3⟩
        dsimp only at g1 g2 g3
        subst g1
        exact ⟨[], p, rfl, rfl, .inl ⟨rfl, rfl⟩, rfl, g2, .inl ⟨rest, rfl, by rw [g3, h1]⟩⟩
    · refine ⟨none, ⟨fun _ => h0, fun _ => rfl⟩, innermost A closed l k none p h3 (fun h => absurd rfl h), ?_⟩
      rintro ⟨rs, r⟩ ⟨g1, g2, g3⟩
      dsimp only at g1 g2 g3
      subst g1
      exact ⟨[], p, rfl, rfl, .inl ⟨rfl, rfl⟩, rfl, g2, .inr ⟨rfl, z, h2, by rw [g3, h1]⟩⟩
  | cons l' ls ih =>
    intro x hx hd
    obtain ⟨av, h1, S, h2⟩ := ih l' x (by simpa using hx) hd
    refine ⟨av, h1, S.layer A, ?_⟩
    rintro ⟨rs, r⟩ ⟨g1, g2⟩
    dsimp only at g1 g2
    subst g1
    exact ⟨rfl, .inl rfl, h2 r g2⟩

/-! ### Reading events, as long as packages come -/

section
variable {A : Aead} {l : Layer} {ls : List Layer}

theorem complete_wrapL (A : Aead) (i : Nat) : ∀ (ls : List Layer) (l : Layer) {f : Bytes}, okL (l :: ls) f.length → complete (wrapL A (l :: ls) i f) = true := by
  intro ls
  induction ls with
  | nil => intro l f h; exact (decrypt_pkg (A := A) (l := l) (i := i) h.2.1).1
  | cons l' ls ih =>
    intro l f h
    exact ih l' (by rw [length_pkg A l i h.2.1]; exact h.2.2)

/-- A whole package is given by its ciphertext. -/
theorem complete_inj {p q : Bytes} (hp : complete p = true) (hq : complete q = true) (h : p.drop 4 = q.drop 4) : p = q := by
  obtain ⟨h1, h2⟩ := complete_iff.1 hp
  obtain ⟨g1, g2⟩ := complete_iff.1 hq
  have hl := congrArg List.length h
  simp only [List.length_drop] at hl
  have ht : p.take 4 = q.take 4 := beVal_inj (by rw [List.length_take, List.length_take]; omega) (by omega)
  rw [← List.take_append_drop 4 p, ← List.take_append_drop 4 q, h, ht]

/-- The events are read whose packages come one after the other; then nothing deciphers. -/
theorem read_until (A : Aead) (l : Layer) (ls : List Layer) (closed checks : Bool) {x : Layer} (hx : (l :: ls).getLast? = some x) (B : Bytes) (E : List Event)
    (unforged : ∀ (n : Nat) (c q : Bytes), n ≤ E.length → c <:+: B → A.dec x.key (nonceFromNumber (UInt64.ofNat (x.start + n))) c = some q → ∃ e, E[n]? = some e ∧ c = (wrapL A (l :: ls) n (Wire.frame e)).drop 4) :
    ∀ (es : List Event) (i : Nat) (r : RState (l :: ls).length) (b : Bytes) (fuel : Nat), E.drop i = es → i ≤ E.length → es.length < fuel → (∀ e ∈ es, Carry ls e) → b <:+: B → (receives A closed (l :: ls)).idle i r b →
    ∃ k b', k ≤ es.length ∧ b = wraps A (l :: ls) i (es.take k) ++ b' ∧ (∀ e, es[k]? = some e → ¬ wrapL A (l :: ls) (i + k) (Wire.frame e) <+: b') ∧
      ∃ av : Option Bytes, (av = none ↔ NoPackage b') ∧ readLoop (source (layersR A (l :: ls).length)) checks fuel r = (es.take k, stops av closed) := by
  have dead : ∀ (es : List Event) (i : Nat) (r : RState (l :: ls).length) (b : Bytes) (fuel : Nat), E.drop i = es → i ≤ E.length → (∀ e ∈ es, Carry ls e) → b <:+: B → (receives A closed (l :: ls)).idle i r b →
      (∀ e, es[0]? = some e → ¬ wrapL A (l :: ls) i (Wire.frame e) <+: b) →
      ∃ av : Option Bytes, (av = none ↔ NoPackage b) ∧ readLoop (source (layersR A (l :: ls).length)) checks (fuel + 1) r = ([], stops av closed) := by
    intro es i r b fuel he hi hc hb hr hn
    obtain ⟨av, h1, S, h2⟩ := dead_event A closed i b l ls x hx (by
      intro p rest hp hcp
      cases hdec : A.dec x.key (nonceFromNumber (UInt64.ofNat (x.start + i))) (p.drop 4) with
      | none => rfl
      | some q =>
        exfalso
        obtain ⟨e, g1, g2⟩ := unforged i (p.drop 4) q hi ((((List.drop_suffix 4 p).isInfix).trans (by rw [hp]; exact (List.prefix_append p rest).isInfix)).trans hb) hdec
        have g3 : es[0]? = some e := by rw [← he, List.getElem?_drop]; exact g1
        have hce := hc e (List.mem_of_getElem? g3)
        have := complete_inj hcp (complete_wrapL A i ls l (hce.ok l)) g2
        exact hn e g3 ⟨rest, by rw [← this, hp]⟩)
    refine ⟨av, h1, ?_⟩
    unfold readLoop
    rw [S.event (h2 r hr)]
    unfold stops
    cases av with
    | some _ => rfl
    | none => cases closed <;> rfl
  intro es
  induction es with
  | nil =>
    intro i r b fuel he hi hf hc hb hr
    obtain ⟨fuel, rfl⟩ : ∃ m, fuel = m + 1 := ⟨fuel - 1, by simp only [List.length_nil] at hf; omega⟩
    obtain ⟨av, h1, h2⟩ := dead [] i r b fuel he hi hc hb hr (by simp)
    exact ⟨0, b, Nat.le_refl _, by simp [wraps], by simp, av, h1, h2⟩
  | cons e es ih =>
    intro i r b fuel he hi hf hc hb hr
    obtain ⟨fuel, rfl⟩ : ∃ m, fuel = m + 1 := ⟨fuel - 1, by simp only [List.length_cons] at hf; omega⟩
    by_cases hp : wrapL A (l :: ls) i (Wire.frame e) <+: b
    · obtain ⟨rest, rfl⟩ := hp
      have hce := hc e (by simp)
      obtain ⟨r', h1, h2⟩ := (receives A closed (l :: ls)).read_event (checks := checks) (receives_ok A closed (l :: ls) (hce.ok l)) (hce.read checks) (by rw [receives_wrap]; exact hr)
      have hd : E.drop (i + 1) = es := by
        have := congrArg (List.drop 1) he
        rw [List.drop_drop] at this
        exact this
      have hi' : i + 1 ≤ E.length := by
        have := congrArg List.length he
        simp only [List.length_drop, List.length_cons] at this
        omega
      obtain ⟨k, b', g1, g2, g3, av, g4, g5⟩ := ih (i + 1) r' rest fuel hd hi' (by simp only [List.length_cons] at hf; omega) (fun e he => hc e (by simp [he])) ((List.suffix_append _ rest).isInfix.trans hb) h2
      refine ⟨k + 1, b', by simp only [List.length_cons]; omega, ?_, ?_, av, g4, ?_⟩
      · rw [g2]; simp [wraps]
      · intro e' h'
        rw [show i + (k + 1) = i + 1 + k by omega]
        exact g3 e' (by simpa using h')
      · rw [readLoop_step fuel h1, g5]
        rfl
    · obtain ⟨av, h1, h2⟩ := dead (e :: es) i r b fuel he hi hc hb hr (by simpa using hp)
      exact ⟨0, b, Nat.zero_le _, by simp [wraps], by simpa using hp, av, h1, h2⟩

end
end Bromine.Layers
