import Verif.Spec.LayerPeer
import Verif.Lemmas.LayerPair
/-
Key exchanges with an arbitrary peer, over any transport and in each other.
-/
namespace Bromine.Layers
open Bromine CryptIO Spec Props
open Bromine.Handshake (DH Keys)

/-! ### Reading what an arbitrary peer has sent -/

/-- The result of a read with room for `want` bytes, when `h` has been read before. -/
inductive Took {ρ : Type} (ok : ρ → Bytes → Prop) (closed : Bool) (clean undec : Prop) (want : Nat) (h : Bytes) : Poll Unit × Bytes × ρ → Prop
  | ready {bs r'} : ok r' (h ++ bs) → bs.length ≤ want → (bs = [] → closed = true) → Took ok closed clean undec want h (.ready (.ok ()), bs, r')
  | error {e bs r'} : (e = .unexpectedEof ∧ closed = true) ∨ (e = .invalidData ∧ undec) → Took ok closed clean undec want h (.ready (.error e), bs, r')
  | pending {b bs r'} : ok r' (h ++ bs) → bs.length < want → (clean → bs = []) → Took ok closed clean undec want h (.pending b, bs, r')

/-- What is proved of a transport for any peer. `ok r h`: `h` has been read; `clean`: a read that is pending has given nothing; `undec n`: while less than `n` bytes had been deciphered, a package has been received that does not decipher. -/
structure Robust {ρ : Type} (R : ReadT ρ) (closed : Bool) where
  ok : ρ → Bytes → Prop
  clean : Prop
  undec : Nat → Prop
  read : ∀ {r h want}, ok r h → 0 < want → Took ok closed clean (undec (h.length + want)) want h (R.pollRead r want)

/-- The result of `read_exact` or `read_u32`: `lost` has been read and forgotten. -/
inductive Fills {ρ : Type} (ok : ρ → Bytes → Prop) (closed : Bool) (clean undec : Prop) (int : Bool) (n : Nat) (got h : Bytes) : Fill ρ → Prop
  | done {y r'} : (got ++ y).length = n → ok r' (h ++ y) → Fills ok closed clean undec int n got h (.done (got ++ y) r')
  | pending {b y lost r'} : (got ++ y).length < n → ok r' (h ++ y ++ lost) → (int = false ∨ clean → lost = []) → Fills ok closed clean undec int n got h (.pending b (got ++ y) r')
  | fail {e r'} : (e = .unexpectedEof ∧ closed = true) ∨ (e = .invalidData ∧ undec) → Fills ok closed clean undec int n got h (.fail e r')

section
variable {ρ : Type} {R : ReadT ρ} {closed : Bool} (V : Robust R closed)

theorem Robust.fill (int : Bool) : ∀ (k : Nat) {n : Nat} {got h : Bytes} {r : ρ}, n - got.length = k → got.length ≤ n → V.ok r h → Fills V.ok closed V.clean (V.undec (h.length + (n - got.length))) int n got h (fill R int n got r) := by
  intro k
  induction k using Nat.strongRecOn with
  | ind k ih =>
    intro n got h r hk hle hok
    unfold Layers.fill
    by_cases hn : n ≤ got.length
    · rw [if_pos hn]
      have := Fills.done (ok := V.ok) (closed := closed) (clean := V.clean) (undec := V.undec (h.length + (n - got.length))) (int := int) (n := n) (got := got) (h := h) (y := []) (r' := r) (by rw [List.append_nil]; omega) (by rw [List.append_nil]; exact hok)
      rw [List.append_nil] at this
      exact this
    · rw [if_neg hn]
      have hr := V.read (want := n - got.length) hok (by omega)
      generalize R.pollRead r (n - got.length) = x at hr
      cases hr with
      | error he => exact .fail he
      | @pending b bs r' h1 h2 h3 =>
        dsimp only
        cases int with
        | true =>
          have := Fills.pending (ok := V.ok) (closed := closed) (clean := V.clean) (undec := V.undec (h.length + (n - got.length))) (int := true) (n := n) (got := got) (h := h) (b := b) (y := []) (lost := bs) (r' := r') (by rw [List.append_nil]; omega)
            (by rw [List.append_nil]; exact h1) (by intro hh; exact h3 (hh.resolve_left (by simp)))
          rw [List.append_nil] at this
          exact this
        | false => exact .pending (lost := []) (by rw [List.length_append]; omega) (by rw [List.append_nil]; exact h1) (fun _ => rfl)
      | @ready bs r' h1 h2 h3 =>
        cases bs with
        | nil => exact .fail (.inl ⟨rfl, h3 rfl⟩)
        | cons b bs =>
          dsimp only
          have hl : (got ++ b :: bs).length = got.length + (b :: bs).length := List.length_append
          simp only [List.length_cons] at hl h2
          have := ih (n - (got ++ b :: bs).length) (by omega) (n := n) (got := got ++ b :: bs) (h := h ++ b :: bs) (r := r') rfl (by omega) h1
          have hm : (h ++ b :: bs).length + (n - (got ++ b :: bs).length) = h.length + (n - got.length) := by simp only [List.length_append, List.length_cons] at hl ⊢; omega
          rw [hm] at this
          generalize Layers.fill R int n (got ++ b :: bs) r' = x at this
          cases this with
          | fail he => exact .fail he
          | @done y r'' g1 g2 =>
            rw [List.append_assoc] at g1 g2 ⊢
            exact .done g1 g2
          | @pending b' y lost r'' g1 g2 g3 =>
            rw [List.append_assoc] at g1 ⊢
            rw [List.append_assoc h] at g2
            exact .pending g1 g2 g3

/-- The package is not longer than its first 4 bytes say. -/
def Part (acc : Bytes) : Prop := 4 ≤ acc.length → acc.length ≤ 4 + beVal (acc.take 4)

theorem take4_append {acc y : Bytes} (h : 4 ≤ acc.length) : (acc ++ y).take 4 = acc.take 4 := List.take_append_of_le_length h

/-- The result of reading a package. -/
inductive PackRead (ok : ρ → Bytes → Prop) (closed : Bool) (clean undec : Prop) (acc h : Bytes) : Fill ρ → Prop
  | done {y r'} : complete (acc ++ y) = true → ok r' (h ++ y) → PackRead ok closed clean undec acc h (.done (acc ++ y) r')
  | pending {b y lost r'} : Part (acc ++ y) → ok r' (h ++ y ++ lost) → (clean → lost = []) → PackRead ok closed clean undec acc h (.pending b (acc ++ y) r')
  | fail {e r'} : (e = .unexpectedEof ∧ closed = true) ∨ (e = .invalidData ∧ undec) → PackRead ok closed clean undec acc h (.fail e r')

theorem Robust.body {acc h : Bytes} {r : ρ} (h4 : 4 ≤ acc.length) (hp : Part acc) (hok : V.ok r h) :
    PackRead V.ok closed V.clean (∃ m, V.undec m) acc h (Layers.fill R false (4 + beVal (acc.take 4)) acc r) := by
  have := V.fill false _ rfl (hp h4) hok
  generalize Layers.fill R false (4 + beVal (acc.take 4)) acc r = x at this
  cases this with
  | fail he => exact .fail (he.imp id fun he => ⟨he.1, _, he.2⟩)
  | done g1 g2 => exact .done (complete_iff.2 ⟨by rw [List.length_append]; omega, by rw [take4_append h4]; exact g1⟩) g2
  | pending g1 g2 g3 => exact .pending (fun _ => by rw [take4_append h4]; omega) g2 fun _ => g3 (.inl rfl)

theorem Robust.package {acc h : Bytes} {r : ρ} (hp : Part acc) (hok : V.ok r h) : PackRead V.ok closed V.clean (∃ m, V.undec m) acc h (Layers.pollPackage R acc r) := by
  unfold Layers.pollPackage
  by_cases h4 : acc.length < 4
  · rw [if_pos h4]
    have := V.fill true _ rfl (n := 4) (by omega) hok (got := acc)
    generalize Layers.fill R true 4 acc r = x at this
    cases this with
    | fail he => exact .fail (he.imp id fun he => ⟨he.1, _, he.2⟩)
    | pending g1 g2 g3 => exact .pending (fun h => by omega) g2 fun h => g3 (.inr h)
    | @done y r' g1 g2 =>
      dsimp only
      have := V.body (acc := acc ++ y) (by omega) (fun _ => by omega) g2
      generalize Layers.fill R false (4 + beVal ((acc ++ y).take 4)) (acc ++ y) r' = x at this
      cases this with
      | fail he => exact .fail he
      | @done y' r'' i1 i2 =>
        rw [List.append_assoc] at i1 i2 ⊢
        exact .done i1 i2
      | @pending b y' lost r'' i1 i2 i3 =>
        rw [List.append_assoc] at i1 ⊢
        rw [List.append_assoc h] at i2
        exact .pending i1 i2 i3
  · rw [if_neg h4]
    exact V.body (by omega) hp hok

/-! ### A layer -/

/-- A layer that reads with the key `key`: of the bytes that have come after `base` it has read first `kept0`, with plaintext `plain0`, then packages with its key, then a part of a package, `acc`. -/
structure Deciphers (A : Aead) (key base kept0 plain0 : Bytes) (s : ReadStream × ρ) (h : Bytes) (came kept pkgs acc : Bytes) (plains : List Bytes) : Prop where
  inner : V.ok s.2 (base ++ came)
  sub : kept.Sublist came
  all : V.clean → kept = came
  kept : kept = kept0 ++ pkgs ++ acc
  packages : Packages A key 0 plains pkgs
  plain : plain0 ++ plains.flatten = h ++ s.1.remaining
  dec : s.1.dec = { key := key, count := UInt64.ofNat plains.length }
  fut : (s.1.fut = none ∧ acc = []) ∨ (s.1.fut = some (.reading acc) ∧ Part acc ∧ s.1.remaining = [])

def LayerOk (A : Aead) (key base kept0 plain0 : Bytes) (s : ReadStream × ρ) (h : Bytes) : Prop := ∃ came kept pkgs acc plains, Deciphers V A key base kept0 plain0 s h came kept pkgs acc plains

/-- The next package does not decipher, and less than `n` bytes have been deciphered. -/
def LayerBad (A : Aead) (key base kept0 plain0 : Bytes) (n : Nat) : Prop :=
  ∃ r came kept pkgs acc plains, V.ok r (base ++ came) ∧ kept.Sublist came ∧ (V.clean → kept = came) ∧ kept = kept0 ++ pkgs ++ acc ∧ Packages A key 0 plains pkgs ∧
    (plain0 ++ plains.flatten).length < n ∧ complete acc = true ∧ A.dec key (nonceFromNumber (UInt64.ofNat plains.length)) (acc.drop 4) = none

theorem package_of_complete {A : Aead} {key acc m : Bytes} {i : Nat} (h : complete acc = true) (hd : A.dec key (nonceFromNumber (UInt64.ofNat i)) (acc.drop 4) = some m) : Package A key i m acc := by
  obtain ⟨h1, h2⟩ := complete_iff.1 h
  refine ⟨_, acc.drop 4, acc.take 4, nonce_spec i, (A.dec_iff _ _ _ _).1 hd, ?_, (List.take_append_drop 4 acc).symm⟩
  rw [bigEndian_iff, List.length_take, List.length_drop]
  omega

variable {V} {A : Aead} {key base kept0 plain0 : Bytes}

theorem deciphers_fut {rs : ReadStream} {r : ρ} {h came kept pkgs acc : Bytes} {plains : List Bytes} {want : Nat} (hd : Deciphers V A key base kept0 plain0 (rs, r) h came kept pkgs acc plains) (hf : rs.fut = some (.reading acc))
    (hpart : Part acc) (hrem : rs.remaining = []) (hw : 0 < want) :
    Took (LayerOk V A key base kept0 plain0) closed False ((∃ m, V.undec m) ∨ LayerBad V A key base kept0 plain0 (h.length + want)) want h (Layers.pollFutRead R A rs r want) := by
  obtain ⟨rdec, rremaining, rfut⟩ := rs
  obtain ⟨h1, h2, h3, h4, h5, h6, h7, -⟩ := hd
  dsimp only at h1 h6 h7 hf hrem
  subst hf hrem h7
  have hp := V.package hpart h1
  simp only [Layers.pollFutRead]
  generalize Layers.pollPackage R acc r = x at hp
  cases hp with
  | fail he => exact .error (he.imp id fun he => ⟨he.1, .inl he.2⟩)
  | @pending b y lost r' g1 g2 g3 =>
    refine .pending ⟨came ++ (y ++ lost), kept ++ y, pkgs, acc ++ y, plains, by simpa using g2, h2.append (List.sublist_append_left _ _), fun hc => ?_, by rw [h4]; simp, h5, by simpa using h6, rfl, .inr ⟨rfl, g1, rfl⟩⟩ hw (fun _ => rfl)
    rw [h3 hc, g3 hc, List.append_nil]
  | @done y r' g1 g2 =>
    have hkept : kept ++ y = kept0 ++ pkgs ++ (acc ++ y) := by rw [h4]; simp
    have hok : V.ok r' (base ++ (came ++ y)) := by simpa using g2
    dsimp only [Decryptor.decrypt]
    cases hdec : A.dec key (nonceFromNumber (UInt64.ofNat plains.length)) ((acc ++ y).drop 4) with
    | none =>
      refine .error (.inr ⟨rfl, .inr ⟨r', came ++ y, kept ++ y, pkgs, acc ++ y, plains, hok, h2.append (List.Sublist.refl _), fun hc => by rw [h3 hc], hkept, h5, ?_, g1, hdec⟩⟩)
      rw [h6, List.append_nil]; omega
    | some p =>
      have hpk := package_of_complete g1 hdec
      have hps := CryptBytes.packages_snoc h5 (by rw [Nat.zero_add]; exact hpk)
      have hplain : plain0 ++ (plains ++ [p]).flatten = h ++ p := by
        simp only [List.flatten_append, List.flatten_cons, List.flatten_nil, List.append_nil]
        rw [← List.append_assoc, h6, List.append_nil]
      have hcount : (UInt64.ofNat plains.length + 1 : UInt64) = UInt64.ofNat (plains ++ [p]).length := by simp
      have hnew : LayerOk V A key base kept0 plain0 ({ dec := { key := key, count := UInt64.ofNat plains.length + 1 }, remaining := p.drop want, fut := none }, r') (h ++ p.take want) := by
        refine ⟨came ++ y, kept ++ y, pkgs ++ (acc ++ y), [], plains ++ [p], hok, h2.append (List.Sublist.refl _), fun hc => by rw [h3 hc], by rw [hkept]; simp, hps, ?_, by rw [hcount], .inl ⟨rfl, rfl⟩⟩
        rw [hplain, List.append_assoc, List.take_append_drop]
      dsimp only
      rw [List.nil_append]
      by_cases hle : want ≤ p.length
      · rw [if_pos hle]
        refine .ready hnew (by rw [List.length_take]; omega) fun he => ?_
        have := congrArg List.length he
        rw [List.length_take, List.length_nil] at this
        omega
      · rw [if_neg hle]
        exact .pending hnew (by rw [List.length_take]; omega) fun hc => hc.elim

theorem deciphers_read {s : ReadStream × ρ} {h : Bytes} {want : Nat} (hd : LayerOk V A key base kept0 plain0 s h) (hw : 0 < want) :
    Took (LayerOk V A key base kept0 plain0) closed False ((∃ m, V.undec m) ∨ LayerBad V A key base kept0 plain0 (h.length + want)) want h (Layers.pollRead R A s want) := by
  obtain ⟨came, kept, pkgs, acc, plains, hd⟩ := hd
  obtain ⟨⟨rdec, rremaining, rfut⟩, r⟩ := s
  obtain ⟨h1, h2, h3, h4, h5, h6, h7, h8⟩ := id hd
  dsimp only at h1 h6 h7 h8
  rcases h8 with ⟨rfl, rfl⟩ | ⟨rfl, h8, rfl⟩
  · simp only [Layers.pollRead]
    have hcut : plain0 ++ plains.flatten = h ++ rremaining.take want ++ rremaining.drop want := by rw [List.append_assoc, List.take_append_drop]; exact h6
    by_cases hl : (rremaining.take want).length < want
    · rw [if_pos hl]
      rw [List.length_take] at hl
      have hrem : rremaining.drop want = [] := List.drop_of_length_le (by omega)
      have htake : rremaining.take want = rremaining := List.take_of_length_le (by omega)
      rw [hrem, htake, List.append_nil] at hcut
      rw [hrem, htake]
      have hd' : Deciphers V A key base kept0 plain0 ({ dec := rdec, remaining := [], fut := some (.reading []) }, r) (h ++ rremaining) came kept pkgs [] plains :=
        ⟨h1, h2, h3, h4, h5, by simpa using hcut, h7, .inr ⟨rfl, fun h => absurd h (by simp), rfl⟩⟩
      have := deciphers_fut (want := want - rremaining.length) hd' rfl (fun h => absurd h (by simp)) rfl (by omega)
      have hm : (h ++ rremaining).length + (want - rremaining.length) = h.length + want := by rw [List.length_append]; omega
      rw [hm] at this
      generalize Layers.pollFutRead R A { dec := rdec, remaining := [], fut := some (.reading []) } r (want - rremaining.length) = x at this
      cases this with
      | error he => exact .error he
      | ready g1 g2 g3 =>
        rw [List.append_assoc] at g1
        exact .ready g1 (by rw [List.length_append]; dsimp only; omega) fun he => g3 (List.append_eq_nil_iff.1 he).2
      | pending g1 g2 g3 =>
        rw [List.append_assoc] at g1
        exact .pending g1 (by rw [List.length_append]; dsimp only; omega) fun hc => hc.elim
    · rw [if_neg hl]
      refine .ready ⟨came, kept, pkgs, [], plains, h1, h2, h3, h4, h5, hcut, h7, .inl ⟨rfl, rfl⟩⟩ (by rw [List.length_take]; omega) fun he => ?_
      rw [he] at hl
      exact absurd hw hl
  · simp only [Layers.pollRead]
    exact deciphers_fut hd rfl h8 rfl hw

end

/-- A layer over such a transport. -/
def Robust.layer {ρ : Type} {R : ReadT ρ} {closed : Bool} (V : Robust R closed) (A : Aead) (key base kept0 plain0 : Bytes) : Robust (encryptedR R A) closed where
  ok := LayerOk V A key base kept0 plain0
  clean := False
  undec n := (∃ m, V.undec m) ∨ LayerBad V A key base kept0 plain0 n
  read h hw := deciphers_read h hw

/-- A socket that receives `wire`. -/
def socketRobust (closed : Bool) (wire : Bytes) : Robust socketR closed where
  ok r h := r.closed = closed ∧ h ++ scriptBytes r = wire
  clean := True
  undec _ := False
  read := by
    rintro ⟨cs, cl⟩ h want ⟨rfl, rfl⟩ hw
    cases cs with
    | nil =>
      simp only [socketR]
      split
      · rename_i hc
        exact .ready ⟨rfl, by simp⟩ (by simp) fun _ => hc
      · exact .pending ⟨rfl, by simp⟩ hw fun _ => rfl
    | cons c cs =>
      cases c with
      | pending => exact .pending ⟨rfl, by simp [scriptBytes, Chunk.bytes]⟩ hw fun _ => rfl
      | data b bs =>
        refine .ready ⟨rfl, ?_⟩ (by rw [List.length_take]; omega) fun he => ?_
        · have : scriptBytes { chunks := pushRest ((b :: bs).drop want) cs, closed := cl } = (b :: bs).drop want ++ (cs.map Chunk.bytes).flatten := by
            unfold pushRest scriptBytes
            cases (b :: bs).drop want <;> simp [Chunk.bytes]
          rw [this, List.append_assoc, ← List.append_assoc (List.take _ _), List.take_append_drop]
          simp [scriptBytes, Chunk.bytes]
        · have := congrArg List.length he
          simp only [List.length_take, List.length_cons, List.length_nil] at this
          omega

/-- While a package is being read, no plaintext is left. -/
def Calm {ρ : Type} (s : ReadStream × ρ) : Prop := s.1.fut = none ∨ s.1.remaining = []

/-- The same for the outermost of any number of layers. -/
def CalmR : (n : Nat) → RState n → Prop
  | 0, _ => True
  | n + 1, s => Calm (ρ := RState n) s

theorem LayerOk.calm {ρ : Type} {R : ReadT ρ} {closed : Bool} {V : Robust R closed} {A : Aead} {key base kept0 plain0 : Bytes} {s : ReadStream × ρ} {h : Bytes} (hs : LayerOk V A key base kept0 plain0 s h) : Calm s := by
  obtain ⟨_, _, _, _, _, hd⟩ := hs
  exact hd.fut.imp And.left fun h => h.2.2

/-- A read that is ready leaves no package half read. -/
theorem ready_idle {ρ : Type} {R : ReadT ρ} {A : Aead} {s s' : ReadStream × ρ} {want : Nat} {bs : Bytes} (h : Layers.pollRead R A s want = (.ready (.ok ()), bs, s')) : s'.1.fut = none := by
  have hf : ∀ (rs : ReadStream) (r : ρ) want bs s', Layers.pollFutRead R A rs r want = (.ready (.ok ()), bs, s') → s'.1.fut = none := by
    intro rs r want bs s' h
    unfold Layers.pollFutRead at h
    split at h
    · split at h
      · cases h
      · cases h
      · cases h
      · split at h
        · cases h
        · dsimp only at h
          injection h with h1 h2
          injection h2 with h2 h3
          subst h3
          rfl
    · cases h
  obtain ⟨rs, r⟩ := s
  unfold Layers.pollRead at h
  dsimp only at h
  split at h
  · exact hf _ _ _ _ _ h
  · rename_i hn
    split at h
    · injection h with h1 h2
      injection h2 with h2 h3
      rw [← h3]
      refine hf _ _ _ _ _ (Prod.ext h1 (Prod.ext rfl rfl))
    · injection h with h1 h2
      injection h2 with h2 h3
      subst h3
      exact hn

theorem fill_idle {ρ : Type} {R : ReadT ρ} {A : Aead} {int : Bool} : ∀ (k : Nat) {n : Nat} {got got' : Bytes} {s s' : ReadStream × ρ}, n - got.length = k → got.length < n → fill (encryptedR R A) int n got s = .done got' s' → s'.1.fut = none := by
  intro k
  induction k using Nat.strongRecOn with
  | ind k ih =>
    intro n got got' s s' hk hlt h
    unfold fill at h
    rw [if_neg (by omega)] at h
    rcases hx : (encryptedR R A).pollRead s (n - got.length) with ⟨p, bs, s1⟩
    rw [hx] at h
    cases p with
    | panic => cases h
    | pending b => cases h
    | ready x =>
      cases x with
      | error e => cases h
      | ok u =>
        cases bs with
        | nil => cases h
        | cons b bs =>
          dsimp only at h
          by_cases hlt' : (got ++ b :: bs).length < n
          · exact ih (n - (got ++ b :: bs).length) (by simp only [List.length_append, List.length_cons]; omega) rfl hlt' h
          · unfold fill at h
            rw [if_pos (by omega)] at h
            injection h with h1 h2
            subst h2
            exact ready_idle (want := n - got.length) hx

end Bromine.Layers
