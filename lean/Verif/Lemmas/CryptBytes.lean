import Verif.Model.CryptBytes
import Verif.Lemmas.CryptWire
/-
An encrypted connection as a byte stream.
-/
namespace Bromine.CryptBytes
open Bromine CryptIO Spec CryptWire

theorem nonce_eq (x : UInt64) : nonceFromNumber x = putU64 x ++ (putU64 x).take 4 := by
  unfold nonceFromNumber
  have hl : (putU64 x).length = 8 := length_putU64 x
  rw [List.take_append, List.take_of_length_le (by omega), hl]

theorem package_complete {A : Aead} {key : Bytes} {i : Nat} {m pkg : Bytes} (h : Package A key i m pkg) :
    complete pkg = true ∧ A.dec key (nonceFromNumber (UInt64.ofNat i)) (pkg.drop 4) = some m := by
  obtain ⟨nonce, c, lb, ⟨nb, h1, h2⟩, h3, h4, rfl⟩ := h
  have hlt : c.length < 2 ^ 32 := by
    have := bigEndian_lt h4
    omega
  have hlb : lb ++ c = packageBytes c := by
    unfold packageBytes
    congr 1
    rw [bigEndian_iff] at h4
    apply beVal_inj
    · rw [h4.1, length_putU32]
    · rw [← h4.2]
      unfold putU32
      rw [beVal_beBytes, toNat32 hlt]
      exact (Nat.mod_eq_of_lt hlt).symm
  have hno : nonce = nonceFromNumber (UInt64.ofNat i) := by
    rw [nonce_eq, h2]
    have : nb = putU64 (UInt64.ofNat i) := by
      rw [← bigEndian_put64]
      simpa using h1
    rw [this]
  rw [hlb]
  exact ⟨complete_package hlt, by rw [drop_package, A.dec_iff, ← hno]; exact h3⟩

theorem package_of_enc {A : Aead} {key : Bytes} {i : Nat} {m c : Bytes} (h : A.enc key (nonceFromNumber (UInt64.ofNat i)) m = some c)
    (hlt : c.length < 2 ^ 32) : Package A key i m (packageBytes c) := by
  refine ⟨_, c, putU32 (UInt32.ofNat c.length), ⟨putU64 (UInt64.ofNat i), ?_, nonce_eq _⟩, h, ?_, rfl⟩
  · have := (bigEndian_put64 (x := UInt64.ofNat i) (bs := putU64 (UInt64.ofNat i))).2 rfl
    simpa using this
  · rw [bigEndian_iff]
    refine ⟨by simp, ?_⟩
    unfold putU32
    rw [beVal_beBytes, toNat32 hlt]
    exact (Nat.mod_eq_of_lt hlt).symm

theorem packages_snoc {A : Aead} {key : Bytes} {m pkg : Bytes} : ∀ {ms : List Bytes} {i : Nat} {bs : Bytes}, Packages A key i ms bs →
    Package A key (i + ms.length) m pkg → Packages A key i (ms ++ [m]) (bs ++ pkg) := by
  intro ms
  induction ms with
  | nil => intro i bs h hp; cases h; exact ⟨pkg, [], hp, by simp, rfl⟩
  | cons a ms ih =>
    intro i bs h hp
    obtain ⟨p, rest, h1, rfl, h2⟩ := h
    exact ⟨p, rest ++ pkg, h1, by simp, ih h2 (by rw [Nat.add_assoc, Nat.add_comm 1]; exact hp)⟩

theorem pollPackage_keeps {closed : Bool} : ∀ (cs : List Chunk) (acc acc' : Bytes) (cs' : List Chunk),
    pollPackage closed acc cs = (.pending acc', cs') → acc' ++ flat cs' = acc ++ flat cs := by
  intro cs
  induction cs with
  | nil => intro acc acc' cs' h; cases closed <;> simp [pollPackage] at h; obtain ⟨rfl, rfl⟩ := h; rfl
  | cons c cs ih =>
    intro acc acc' cs' h
    cases c with
    | pending => simp only [pollPackage] at h; cases h; simp [Chunk.bytes]
    | data b bs =>
      simp only [pollPackage] at h
      split at h
      · cases h
      · rename_i hc
        rw [ih _ _ _ h]
        have : ∀ (bs acc : Bytes), (feed acc bs).1 ++ (feed acc bs).2 = acc ++ bs := by
          intro bs
          induction bs with
          | nil => intro acc; simp [feed]
          | cons b bs ih => intro acc; simp only [feed]; split; · rfl
                            · rw [ih]; simp
        have h2 : ∀ (bs acc : Bytes), complete (feed acc bs).1 ≠ true → (feed acc bs).2 = [] := by
          intro bs
          induction bs with
          | nil => intro acc _; simp [feed]
          | cons b bs ih =>
            intro acc hc
            simp only [feed] at hc ⊢
            split at hc
            · rename_i h'; exact absurd h' hc
            · rw [if_neg (by assumption)]; exact ih _ hc
        have h3 := this (b :: bs) acc
        rw [h2 _ _ hc, List.append_nil] at h3
        rw [h3]
        simp [Chunk.bytes]

/-- What the read half is going to deliver: `ms` are the plaintexts of the packages it has not completed. -/
def RInv (A : Aead) (key total seen : Bytes) (rs : ReadStream) (cs : List Chunk) : Prop :=
  ∃ i ms bs rest, Packages A key i ms bs ∧ seen ++ rs.remaining ++ ms.flatten = total ∧
    (rs.fut = some .finished ∨
     (rs.dec = { key := key, count := UInt64.ofNat i } ∧
      ((rs.fut = none ∧ flat cs ++ rest = bs) ∨ ∃ acc, rs.fut = some (.reading acc) ∧ Incomplete acc ∧ acc ++ flat cs ++ rest = bs)))

theorem rinv_fut {A : Aead} {key total seen : Bytes} {rs : ReadStream} {cs : List Chunk} (closed : Bool) (want : Nat)
    (h : RInv A key total seen rs cs) (hf : rs.fut ≠ none) :
    RInv A key total (seen ++ (pollFutRead A closed rs want cs).filled) (pollFutRead A closed rs want cs).rs (pollFutRead A closed rs want cs).chunks := by
  obtain ⟨i, ms, bs, rest, h1, h2, h3⟩ := h
  rcases h3 with h3 | ⟨h3, ⟨h4, -⟩ | ⟨acc, h4, h5, h6⟩⟩
  · simp only [pollFutRead, h3]
    exact ⟨i, ms, bs, rest, h1, by simpa using h2, Or.inl h3⟩
  · exact absurd h4 hf
  · simp only [pollFutRead, h4]
    have hfin : ∀ e, RInv A key total (seen ++ []) { rs with fut := some .finished } e := fun e =>
      ⟨i, ms, bs, rest, h1, by simpa using h2, Or.inl rfl⟩
    by_cases hc : Incomplete (acc ++ flat cs)
    · rcases pollPackage_incomplete (closed := closed) cs acc hc with ⟨acc', cs', g1, -, g3⟩ | ⟨g1, -⟩
      · simp only [g1]
        exact ⟨i, ms, bs, rest, h1, by simpa using h2, Or.inr ⟨h3, Or.inr ⟨acc', rfl, g3.left, by rw [pollPackage_keeps _ _ _ _ g1]; exact h6⟩⟩⟩
      · simp only [g1]
        exact hfin _
    · cases ms with
      | nil =>
        cases h1
        rw [List.append_eq_nil_iff] at h6
        rw [h6.1] at hc
        exact absurd (fun p rest h => by
          have : p = [] := by simpa using (List.append_eq_nil_iff.1 h.symm).1
          subst this; simp [complete]) hc
      | cons m ms =>
        obtain ⟨pkg, bs', hp, rfl, hps⟩ := h1
        obtain ⟨hcp, hdec⟩ := package_complete hp
        -- the package is there
        obtain ⟨z, hz⟩ : ∃ z, acc ++ flat cs = pkg ++ z := by
          rcases List.append_eq_append_iff.1 h6 with ⟨z, g1, g2⟩ | ⟨z, g1, g2⟩
          · by_cases hz : z = []
            · subst hz; exact ⟨[], by simpa using g1.symm⟩
            · exact absurd (incomplete_of_cut hcp g1 hz) hc
          · exact ⟨z, g1⟩
        obtain ⟨y, hy, hne⟩ : ∃ y, pkg = acc ++ y ∧ y ≠ [] := by
          rcases List.append_eq_append_iff.1 hz with ⟨w, g1, g2⟩ | ⟨w, g1, g2⟩
          · refine ⟨w, g1, ?_⟩
            rintro rfl
            rw [List.append_nil] at g1
            have := h5 pkg [] (by simp [g1])
            rw [hcp] at this; cases this
          · have := h5 pkg w g1
            rw [hcp] at this; cases this
        rcases pollPackage_complete (closed := closed) hcp cs acc y hy hne hz with ⟨acc', y', cs', g1, -, g3, g4, g5⟩ | ⟨cs', g1, g2⟩
        · simp only [g1]
          exact ⟨i, m :: ms, pkg ++ bs', rest, ⟨pkg, bs', hp, rfl, hps⟩, by simpa using h2,
            Or.inr ⟨h3, Or.inr ⟨acc', rfl, incomplete_of_cut hcp g3 g4, by rw [g5, ← hz]; exact h6⟩⟩⟩
        · simp only [g1, Decryptor.decrypt, h3, hdec]
          refine ⟨i + 1, ms, bs', rest, hps, ?_, Or.inr ⟨by simp, Or.inl ⟨rfl, ?_⟩⟩⟩
          · rw [← h2]
            simp only [List.flatten_cons, List.append_assoc]
            congr 1
            rw [← List.append_assoc (List.take _ _), List.take_append_drop, List.append_assoc]
          · rw [g2]
            rw [hz, List.append_assoc] at h6
            exact List.append_cancel_left h6

theorem rinv_poll {A : Aead} {key total seen : Bytes} {rs : ReadStream} {cs : List Chunk} (closed : Bool) (want : Nat)
    (h : RInv A key total seen rs cs) :
    RInv A key total (seen ++ (rs.pollRead A closed want cs).filled) (rs.pollRead A closed want cs).rs (rs.pollRead A closed want cs).chunks := by
  unfold ReadStream.pollRead
  split
  · rename_i hf
    exact rinv_fut closed want h (by rw [hf]; simp)
  · rename_i hf
    obtain ⟨i, ms, bs, rest, h1, h2, h3⟩ := h
    rcases h3 with h3 | ⟨h3, ⟨h4, h5⟩ | ⟨acc, h4, -, -⟩⟩
    · rw [hf] at h3; cases h3
    · have h2' : seen ++ rs.remaining.take want ++ rs.remaining.drop want ++ ms.flatten = total := by
        rw [← h2]
        simp only [List.append_assoc]
        congr 1
        rw [← List.append_assoc, List.take_append_drop]
      simp only
      split
      · have := rinv_fut (A := A) (key := key) (total := total) (seen := seen ++ rs.remaining.take want)
          (rs := { rs with remaining := rs.remaining.drop want, fut := some (.reading []) }) (cs := cs) closed
          (want - (rs.remaining.take want).length)
          ⟨i, ms, bs, rest, h1, h2', Or.inr ⟨h3, Or.inr ⟨[], rfl, fun p rest h => by
            have : p = [] := by simpa using (List.append_eq_nil_iff.1 h.symm).1
            subst this; simp [complete], by simpa using h5⟩⟩⟩ (by simp)
        rw [List.append_assoc] at this
        exact this
      · exact ⟨i, ms, bs, rest, h1, h2', Or.inr ⟨h3, Or.inl ⟨hf, h5⟩⟩⟩
    · rw [hf] at h4; cases h4

theorem RInv.prefix {A : Aead} {key total seen : Bytes} {rs : ReadStream} {cs : List Chunk} (h : RInv A key total seen rs cs) :
    seen <+: total := by
  obtain ⟨i, ms, bs, rest, -, h2, -⟩ := h
  exact ⟨_, by rw [← List.append_assoc]; exact h2⟩

theorem readPolls_prefix {A : Aead} {key total : Bytes} {closed : Bool} : ∀ (ws : List Nat) {seen : Bytes} {rs : ReadStream} {cs : List Chunk},
    RInv A key total seen rs cs → seen ++ readPolls A closed rs cs ws <+: total := by
  intro ws
  induction ws with
  | nil => intro seen rs cs h; simpa [readPolls] using h.prefix
  | cons w ws ih =>
    intro seen rs cs h
    simp only [readPolls]
    rw [← List.append_assoc]
    exact ih (rinv_poll closed w h)

/-- An `Ok` of `poll_read` has filled the buffer. -/
theorem pollRead_full {A : Aead} {closed : Bool} {rs : ReadStream} {want : Nat} {cs : List Chunk}
    (h : (rs.pollRead A closed want cs).poll = .ready (.ok ())) : (rs.pollRead A closed want cs).filled.length = want := by
  have key : ∀ (rs : ReadStream) (want : Nat), (pollFutRead A closed rs want cs).poll = .ready (.ok ()) →
      (pollFutRead A closed rs want cs).filled.length = want := by
    intro rs want h
    unfold pollFutRead at h ⊢
    split at h
    · split at h
      · cases h
      · cases h
      · rename_i c cs' hpk
        simp only [Decryptor.decrypt] at h ⊢
        cases hd : A.dec rs.dec.key (nonceFromNumber rs.dec.count) c with
        | none => simp [hd] at h
        | some p =>
          simp only [hd] at h ⊢
          split at h
          · rw [List.length_take]; omega
          · cases h
    · cases h
  unfold ReadStream.pollRead at h ⊢
  split at h
  · exact key rs want h
  · simp only at h ⊢
    split at h
    · rename_i hlt
      have := key _ _ h
      rw [if_pos hlt]
      simp only [List.length_append, this]
      omega
    · rename_i hlt
      rw [if_neg hlt]
      simp only [List.length_take] at hlt ⊢
      omega

theorem pollRead_le {A : Aead} {closed : Bool} {rs : ReadStream} {want : Nat} {cs : List Chunk} :
    (rs.pollRead A closed want cs).filled.length ≤ want := by
  have key : ∀ (rs : ReadStream) (want : Nat), (pollFutRead A closed rs want cs).filled.length ≤ want := by
    intro rs want
    unfold pollFutRead
    split
    · split
      · simp
      · simp
      · simp only [Decryptor.decrypt]
        split
        · simp
        · simp only [List.length_take]; omega
    · simp
  unfold ReadStream.pollRead
  split
  · exact key rs want
  · simp only
    split
    · rename_i h
      have := key { rs with remaining := rs.remaining.drop want, fut := some (.reading []) } (want - (rs.remaining.take want).length)
      simp only [List.length_append] at this ⊢
      omega
    · simp only [List.length_take]; omega

theorem drive_rinv {A : Aead} {key total : Bytes} : ∀ (fuel want : Nat) {seen got b : Bytes} {r r' : Reader},
    RInv A key total (seen ++ got) r.rs r.script.chunks → drive A false fuel want got r = .ok (b, r') →
    b.length = got.length + want ∧ RInv A key total (seen ++ b) r'.rs r'.script.chunks := by
  intro fuel
  induction fuel with
  | zero =>
    intro want seen got b r r' h hd
    cases want with
    | zero => simp only [drive] at hd; cases hd; exact ⟨rfl, h⟩
    | succ n => simp [drive] at hd
  | succ fuel ih =>
    intro want seen got b r r' h hd
    cases want with
    | zero => simp only [drive] at hd; cases hd; exact ⟨rfl, h⟩
    | succ n =>
      have h1 := rinv_poll r.script.closed (n + 1) h
      simp only [drive] at hd
      split at hd
      · rename_i hp
        cases hd
        refine ⟨?_, by rw [← List.append_assoc]; exact h1⟩
        rw [List.length_append, pollRead_full hp]
      · cases hd
      · cases hd
      · cases hd
      · simp only [Bool.false_eq_true, if_false] at hd
        obtain ⟨h2, h3⟩ := ih _ (seen := seen) (by rw [← List.append_assoc]; exact h1) hd
        refine ⟨?_, h3⟩
        have := pollRead_le (A := A) (closed := r.script.closed) (rs := r.rs) (want := n + 1) (cs := r.script.chunks)
        simp only [List.length_append] at h2
        omega

theorem readExacts_prefix {A : Aead} {key total : Bytes} : ∀ (ns : List Nat) {seen : Bytes} {r : Reader} {bs : List Bytes},
    RInv A key total seen r.rs r.script.chunks → readExacts A r ns = some bs →
    seen ++ bs.flatten <+: total ∧ bs.map List.length = ns := by
  intro ns
  induction ns with
  | nil => intro seen r bs h hr; simp only [readExacts] at hr; cases hr; simpa using h.prefix
  | cons n ns ih =>
    intro seen r bs h hr
    simp only [readExacts] at hr
    split at hr
    · rename_i b r' hd
      cases hx : readExacts A r' ns with
      | none => simp [hx] at hr
      | some bs' =>
        simp only [hx, Option.map_some] at hr
        cases hr
        obtain ⟨h1, h2⟩ := drive_rinv _ n (seen := seen) (got := []) (by simpa using h) hd
        obtain ⟨h3, h4⟩ := ih h2 hx
        refine ⟨by simpa using h3, ?_⟩
        simp only [List.map_cons, h4, h1, List.length_nil, Nat.zero_add]
    · cases hr

theorem rinv_start {A : Aead} {key : Bytes} {ms : List Bytes} {bs rest : Bytes} {cs : List Chunk} (h : Packages A key 0 ms bs)
    (hc : flat cs ++ rest = bs) : RInv A key ms.flatten [] { dec := { key := key } } cs :=
  ⟨0, ms, bs, rest, h, by simp, Or.inr ⟨rfl, Or.inl ⟨rfl, hc⟩⟩⟩

/-! ### Everything that has arrived gets read -/

theorem pollPackage_length {closed : Bool} : ∀ (cs : List Chunk) (acc : Bytes), (pollPackage closed acc cs).2.length ≤ cs.length := by
  intro cs
  induction cs with
  | nil => intro acc; cases closed <;> simp [pollPackage]
  | cons c cs ih =>
    intro acc
    cases c with
    | pending => simp [pollPackage]
    | data b bs =>
      simp only [pollPackage]
      split
      · simp only [List.length_cons]
        cases (feed acc (b :: bs)).2 <;> simp [pushRest]
      · have := ih (feed acc (b :: bs)).1
        simp only [List.length_cons]
        omega

/-- All the packages have arrived; `n` bounds the number of polls that are needed to read them. -/
def LInv (A : Aead) (key total seen : Bytes) (rs : ReadStream) (cs : List Chunk) (n : Nat) : Prop :=
  ∃ i ms bs, Packages A key i ms bs ∧ seen ++ rs.remaining ++ ms.flatten = total ∧
    cs.length + ms.length + rs.remaining.length + ms.flatten.length ≤ n ∧
    ((rs.fut = some .finished ∧ ms = [] ∧ rs.remaining = []) ∨
     (rs.dec = { key := key, count := UInt64.ofNat i } ∧
      ((rs.fut = none ∧ flat cs = bs) ∨ ∃ acc, rs.fut = some (.reading acc) ∧ Incomplete acc ∧ rs.remaining = [] ∧ acc ++ flat cs = bs)))

theorem linv_fut {A : Aead} {key total seen : Bytes} {rs : ReadStream} {cs : List Chunk} {n : Nat} (closed : Bool) (want : Nat)
    (h : LInv A key total seen rs cs n) (hf : rs.fut ≠ none) :
    LInv A key total (seen ++ (pollFutRead A closed rs want cs).filled) (pollFutRead A closed rs want cs).rs (pollFutRead A closed rs want cs).chunks (n - 1) ∨
      (rs.fut = some .finished ∧ LInv A key total (seen ++ (pollFutRead A closed rs want cs).filled) (pollFutRead A closed rs want cs).rs (pollFutRead A closed rs want cs).chunks n) := by
  obtain ⟨i, ms, bs, h1, h2, hn, h3⟩ := h
  rcases h3 with ⟨h3, h4, h5⟩ | ⟨h3, ⟨h4, -⟩ | ⟨acc, h4, h5, h7, h6⟩⟩
  · right
    simp only [pollFutRead, h3]
    exact ⟨trivial, i, ms, bs, h1, by simpa using h2, hn, Or.inl ⟨h3, h4, h5⟩⟩
  · exact absurd h4 hf
  · left
    simp only [pollFutRead, h4]
    cases ms with
    | nil =>
      cases h1
      rw [List.append_eq_nil_iff] at h6
      have hc : Incomplete (acc ++ flat cs) := by rw [h6.2, List.append_nil]; exact h5
      rcases pollPackage_incomplete (closed := closed) cs acc hc with ⟨acc', cs', g1, g2, g3⟩ | ⟨g1, -⟩
      · simp only [g1]
        refine ⟨i, [], [], rfl, by simpa using h2, ?_, Or.inr ⟨h3, Or.inr ⟨acc', rfl, g3.left, h7, ?_⟩⟩⟩
        · simp only [h7, List.length_nil, List.flatten_nil] at hn ⊢
          rcases g2 with g2 | ⟨rfl, -⟩
          · omega
          · simp
        · rw [pollPackage_keeps _ _ _ _ g1, h6.1, h6.2]; rfl
      · simp only [g1]
        refine ⟨i, [], [], rfl, by simpa using h2, ?_, Or.inl ⟨rfl, rfl, h7⟩⟩
        simp [h7]
    | cons m ms =>
      obtain ⟨pkg, bs', hp, rfl, hps⟩ := h1
      obtain ⟨hcp, hdec⟩ := package_complete hp
      obtain ⟨y, hy, hne⟩ : ∃ y, pkg = acc ++ y ∧ y ≠ [] := by
        rcases List.append_eq_append_iff.1 h6 with ⟨w, g1, g2⟩ | ⟨w, g1, g2⟩
        · refine ⟨w, g1, ?_⟩
          rintro rfl
          rw [List.append_nil] at g1
          have := h5 pkg [] (by simp [g1])
          rw [hcp] at this; cases this
        · have := h5 pkg w g1
          rw [hcp] at this; cases this
      rcases pollPackage_complete (closed := closed) hcp cs acc y hy hne h6 with ⟨acc', y', cs', g1, g2, g3, g4, g5⟩ | ⟨cs', g1, g2⟩
      · simp only [g1]
        refine ⟨i, m :: ms, pkg ++ bs', ⟨pkg, bs', hp, rfl, hps⟩, by simpa using h2, ?_,
          Or.inr ⟨h3, Or.inr ⟨acc', rfl, incomplete_of_cut hcp g3 g4, h7, g5⟩⟩⟩
        simp only [List.length_cons] at hn ⊢
        omega
      · have g3 := pollPackage_length (closed := closed) cs acc
        rw [g1] at g3
        simp only [g1, Decryptor.decrypt, h3, hdec]
        refine ⟨i + 1, ms, bs', hps, ?_, ?_, Or.inr ⟨by simp, Or.inl ⟨rfl, g2⟩⟩⟩
        · rw [← h2]
          simp only [List.flatten_cons, List.append_assoc]
          congr 1
          rw [← List.append_assoc (List.take _ _), List.take_append_drop, List.append_assoc]
        · simp only [List.length_cons, List.flatten_cons, List.length_append, List.length_drop, h7, List.length_nil, List.nil_append] at hn g3 ⊢
          omega

theorem linv_poll {A : Aead} {key total seen : Bytes} {rs : ReadStream} {cs : List Chunk} {n : Nat} (closed : Bool) (want : Nat) (hw : 0 < want)
    (h : LInv A key total seen rs cs n) :
    LInv A key total (seen ++ (rs.pollRead A closed want cs).filled) (rs.pollRead A closed want cs).rs (rs.pollRead A closed want cs).chunks (n - 1) ∨
      (rs.fut = some .finished ∧ LInv A key total (seen ++ (rs.pollRead A closed want cs).filled) (rs.pollRead A closed want cs).rs (rs.pollRead A closed want cs).chunks n) := by
  unfold ReadStream.pollRead
  split
  · rename_i hf
    exact linv_fut closed want h (by rw [hf]; simp)
  · rename_i hf
    left
    obtain ⟨i, ms, bs, h1, h2, hn, h3⟩ := h
    rcases h3 with ⟨h3, -⟩ | ⟨h3, ⟨h4, h5⟩ | ⟨acc, h4, -, -⟩⟩
    · rw [hf] at h3; cases h3
    · have h2' : seen ++ rs.remaining.take want ++ rs.remaining.drop want ++ ms.flatten = total := by
        rw [← h2]
        simp only [List.append_assoc]
        congr 1
        rw [← List.append_assoc, List.take_append_drop]
      simp only
      split
      · rename_i hlt
        have hd : rs.remaining.drop want = [] := by
          rw [List.drop_eq_nil_iff]
          rw [List.length_take] at hlt
          omega
        have := linv_fut (A := A) (key := key) (total := total) (seen := seen ++ rs.remaining.take want)
          (rs := { rs with remaining := rs.remaining.drop want, fut := some (.reading []) }) (cs := cs) (n := n) closed
          (want - (rs.remaining.take want).length)
          ⟨i, ms, bs, h1, h2', by simp only [hd, List.length_nil]; omega, Or.inr ⟨h3, Or.inr ⟨[], rfl, fun p rest h => by
            have : p = [] := by simpa using (List.append_eq_nil_iff.1 h.symm).1
            subst this; simp [complete], hd, by simpa using h5⟩⟩⟩ (by simp)
        rw [List.append_assoc] at this
        rcases this with this | ⟨h, -⟩
        · exact this
        · cases h
      · rename_i hlt
        refine ⟨i, ms, bs, h1, h2', ?_, Or.inr ⟨h3, Or.inl ⟨hf, h5⟩⟩⟩
        simp only [List.length_take] at hlt
        simp only [List.length_drop]
        omega
    · rw [hf] at h4; cases h4

/-- Enough polls read everything. -/
theorem readPolls_all {A : Aead} {key total : Bytes} {closed : Bool} : ∀ (ws : List Nat) {seen : Bytes} {rs : ReadStream} {cs : List Chunk} {n : Nat},
    LInv A key total seen rs cs n → (∀ w ∈ ws, 0 < w) → n ≤ ws.length → seen ++ readPolls A closed rs cs ws = total := by
  intro ws
  induction ws with
  | nil =>
    intro seen rs cs n h _ hl
    obtain ⟨i, ms, bs, -, h2, hn, -⟩ := h
    simp only [List.length_nil] at hl
    have : rs.remaining = [] := List.eq_nil_of_length_eq_zero (by omega)
    have h' : ms.flatten = [] := List.eq_nil_of_length_eq_zero (by omega)
    rw [this, h'] at h2
    simpa [readPolls] using h2
  | cons w ws ih =>
    intro seen rs cs n h hw hl
    simp only [readPolls]
    rw [← List.append_assoc]
    rcases linv_poll closed w (hw w (by simp)) h with h1 | ⟨h1, h2⟩
    · exact ih h1 (fun x hx => hw x (by simp [hx])) (by simp only [List.length_cons] at hl; omega)
    · -- nothing is left
      obtain ⟨i, ms, bs, h3, h4, h5, h6⟩ := h
      have hp : rs.pollRead A closed w cs = { poll := .panic, rs := rs, chunks := cs } := by
        simp only [ReadStream.pollRead, h1, pollFutRead]
      rcases h6 with ⟨-, rfl, h7⟩ | ⟨-, ⟨h6, -⟩ | ⟨acc, h6, -⟩⟩
      · rw [h7] at h4
        have hq : ∀ (ws : List Nat), readPolls A closed rs cs ws = [] := by
          intro ws
          induction ws with
          | nil => rfl
          | cons w ws ih =>
            simp only [readPolls, ReadStream.pollRead, h1, pollFutRead, List.nil_append]
            exact ih
        rw [hp]
        simpa [hq] using h4
      · rw [h1] at h6; cases h6
      · rw [h1] at h6; cases h6

theorem linv_start {A : Aead} {key : Bytes} {ms : List Bytes} {bs : Bytes} {cs : List Chunk} (h : Packages A key 0 ms bs)
    (hc : flat cs = bs) : LInv A key ms.flatten [] { dec := { key := key } } cs (cs.length + ms.length + ms.flatten.length) :=
  ⟨0, ms, bs, h, by simp, by simp, Or.inr ⟨rfl, Or.inl ⟨rfl, hc⟩⟩⟩

/-! ### Writing -/

/-- The bytes of the write that is going on. -/
def curBytes : Option Call → Bytes
  | some (.write buf) => buf
  | _ => []

/-- The calls are small enough. -/
def SmallCall : Call → Prop
  | .write buf => buf.length + WRITE_BUF_SIZE + 16 < 2 ^ 32
  | .flush => True

def WInv (A : Aead) (key : Bytes) (s : Writer) : Prop :=
  ∃ ms rem, Packages A key 0 ms (s.wire ++ rem) ∧ At key ms.length s.ws.enc ∧
    ms.flatten ++ s.ws.buffer = s.accepted ++ curBytes s.cur ∧ s.ws.buffer.length < WRITE_BUF_SIZE ∧
    ((s.cur = none ∧ rem = [] ∧ ∃ x b, s.ws = { enc := x, buffer := b } ∧ (s.flushed = true → b = [])) ∨
     (∃ buf x, s.cur = some (.write buf) ∧ s.ws = { enc := x, inner := false, cipher := false, futWrite := some rem }) ∨
     (∃ x f, s.cur = some .flush ∧ s.ws = { enc := x, inner := false, cipher := false, futFlush := some f } ∧ remOf f = rem))

theorem winv_init (A : Aead) (key : Bytes) (log : List Encryption) : WInv A key { ws := { enc := { key := key, log := log } } } :=
  ⟨[], [], rfl, ⟨rfl, rfl⟩, rfl, by simp [WRITE_BUF_SIZE], Or.inl ⟨rfl, rfl, _, _, rfl, by simp⟩⟩

/-- The next package. -/
theorem encrypt_next {A : Aead} {key : Bytes} {ms : List Bytes} {wire : Bytes} {x : Encryptor} (hp : Packages A key 0 ms wire)
    (hx : At key ms.length x) {m : Bytes} (hm : m.length + 16 < 2 ^ 32) :
    ∃ c x', x.encrypt A m = (.ok c, x') ∧ At key (ms.length + 1) x' ∧ Packages A key 0 (ms ++ [m]) (wire ++ packageBytes c) := by
  obtain ⟨c, hc⟩ := Option.isSome_iff_exists.1 (A.total key (nonceFromNumber (UInt64.ofNat ms.length)) m (by omega))
  obtain ⟨h1, h2⟩ := hx
  refine ⟨c, (x.encrypt A m).2, ?_, ?_, ?_⟩
  · simp only [Encryptor.encrypt, h1, h2, hc]
  · constructor
    · simp only [Encryptor.encrypt, h1, h2, hc]
    · simp only [Encryptor.encrypt, h1, h2, hc, ofNat_succ]
  · refine packages_snoc hp (package_of_enc (by rw [Nat.zero_add]; exact hc) ?_)
    rw [A.len _ _ _ _ hc]; omega

/-- The transport never fails. -/
def Fine (as : List IoAns) : Prop := ¬ Bad as

theorem winv_futWrite {A : Aead} {key : Bytes} {s : Writer} {ms : List Bytes} {rem buf : Bytes} {f : Option Bytes} {x : Encryptor} {as : List IoAns}
    (hp : Packages A key 0 ms (s.wire ++ rem)) (hx : At key ms.length x) (hfl : ms.flatten = s.accepted ++ buf) (ha : Fine as)
    {s' : Writer}
    (hs : (let r := pollFutWrite { enc := x, inner := false, cipher := false, futWrite := f } rem buf.length as
      let s := { s with ws := r.ws, wire := s.wire ++ r.wire }
      match r.poll with
      | .pending _ => some { s with cur := some (.write buf) }
      | .ready (.ok n) => some { s with cur := none, accepted := s.accepted ++ buf.take n, flushed := false }
      | _ => some { s with failed := true }) = some s') : s'.failed = s.failed ∧ WInv A key s' := by
  unfold pollFutWrite at hs
  generalize hw : pollWriteAll rem as = v at hs
  obtain ⟨r, w, rem', as'⟩ := v
  obtain ⟨h1, h2, h3, -⟩ := pollWriteAll_spec hw
  subst h1
  cases r with
  | none =>
    simp only at hs
    cases hs
    exact ⟨rfl, ms, rem', by simpa using hp, hx, by simpa [curBytes] using hfl, by simp [WRITE_BUF_SIZE], Or.inr (Or.inl ⟨buf, x, rfl, rfl⟩)⟩
  | some r =>
    cases r with
    | error er => exact absurd (h3 er rfl) ha
    | ok u =>
      have := h2 rfl
      subst this
      simp only [Except.map] at hs
      cases hs
      refine ⟨rfl, ms, [], by simpa using hp, hx, by simpa [curBytes] using hfl, by simp [WRITE_BUF_SIZE], Or.inl ⟨rfl, rfl, x, [], rfl, by simp⟩⟩

theorem winv_futFlush {A : Aead} {key : Bytes} {s : Writer} {ms : List Bytes} {f : Option FlushFut} {x : Encryptor} {as : List IoAns}
    (hp : Packages A key 0 ms s.wire) (hx : At key ms.length x) (hfl : ms.flatten = s.accepted) (ha : Fine as)
    {s' : Writer} {r : WriteRes Unit}
    (hr : r.poll = (pollFutFlush { enc := x, inner := false, cipher := false, futFlush := f } as).poll)
    (hr' : r.ws = (pollFutFlush { enc := x, inner := false, cipher := false, futFlush := f } as).ws)
    (hs : (match r.poll with
      | .pending _ => some { s with ws := r.ws, cur := some .flush }
      | .ready (.ok _) => some { s with ws := r.ws, cur := none, flushed := true }
      | _ => some { s with ws := r.ws, failed := true }) = some s') : s'.failed = s.failed ∧ WInv A key s' := by
  rw [hr, hr'] at hs
  unfold pollFutFlush at hs
  have hpend : s'.failed = s.failed → s'.wire = s.wire → s'.accepted = s.accepted → s'.cur = some .flush →
      s'.ws = { enc := x, inner := false, cipher := false, futFlush := some .flushing } → s'.failed = s.failed ∧ WInv A key s' := by
    intro g0 g1 g2 g3 g4
    exact ⟨g0, ms, [], by simpa [g1] using hp, by rw [g4]; exact hx, by simpa [g2, g3, g4, curBytes] using hfl, by simp [g4, WRITE_BUF_SIZE],
      Or.inr (Or.inr ⟨x, _, g3, g4, rfl⟩)⟩
  cases as with
  | nil => cases hs; exact hpend rfl rfl rfl rfl rfl
  | cons a as =>
    cases a with
    | pending => cases hs; exact hpend rfl rfl rfl rfl rfl
    | fail er => exact absurd (Or.inl ⟨er, by simp⟩) ha
    | ready n =>
      cases hs
      exact ⟨rfl, ms, [], by simpa using hp, hx, by simpa [curBytes] using hfl, by simp [WRITE_BUF_SIZE], Or.inl ⟨rfl, rfl, x, [], rfl, by simp⟩⟩

theorem winv_flushWrite {A : Aead} {key : Bytes} {s : Writer} {ms : List Bytes} {rem : Bytes} {f : Option FlushFut} {x : Encryptor} {as : List IoAns}
    (hp : Packages A key 0 ms (s.wire ++ rem)) (hx : At key ms.length x) (hfl : ms.flatten = s.accepted) (ha : Fine as)
    {s' : Writer}
    (hs : (let r := pollFlushWrite { enc := x, inner := false, cipher := false, futFlush := f } rem as
      let s := { s with ws := r.ws, wire := s.wire ++ r.wire }
      match r.poll with
      | .pending _ => some { s with cur := some .flush }
      | .ready (.ok _) => some { s with cur := none, flushed := true }
      | _ => some { s with failed := true }) = some s') : s'.failed = s.failed ∧ WInv A key s' := by
  unfold pollFlushWrite at hs
  generalize hw : pollWriteAll rem as = v at hs
  obtain ⟨r, w, rem', as'⟩ := v
  obtain ⟨h1, h2, h3, h4⟩ := pollWriteAll_spec hw
  subst h1
  cases r with
  | none =>
    simp only at hs
    cases hs
    exact ⟨rfl, ms, rem', by simpa using hp, hx, by simpa [curBytes] using hfl, by simp [WRITE_BUF_SIZE], Or.inr (Or.inr ⟨x, _, rfl, rfl, rfl⟩)⟩
  | some r =>
    cases r with
    | error er => exact absurd (h3 er rfl) ha
    | ok u =>
      have := h2 rfl
      subst this
      simp only at hs
      exact winv_futFlush (s := { s with wire := s.wire ++ w }) (by simpa using hp) hx hfl (fun h => ha (h.mono h4)) rfl rfl hs

theorem winv_poll {A : Aead} {key : Bytes} {s s' : Writer} {c : Call} {as : List IoAns} (h : WInv A key s) (hc : SmallCall c) (ha : Fine as)
    (hs : s.poll A c as = some s') : s'.failed = false ∧ WInv A key s' := by
  unfold Writer.poll at hs
  split at hs
  · cases hs
  · rename_i hg
    simp only [not_or, not_and, Decidable.not_not] at hg
    obtain ⟨hfa0, hcur⟩ := hg
    have hfa : s.failed = false := by simpa using hfa0
    clear hfa0
    obtain ⟨ms, rem, h1, h2, h3, h4, h5⟩ := h
    cases c with
    | write buf =>
      simp only at hs
      rcases h5 with ⟨h5, rfl, x, b, h6, h7⟩ | ⟨buf', x, h5, h6⟩ | ⟨x, f, h5, -, -⟩
      · obtain ⟨ws, wire, accepted, cur, flushed, failed⟩ := s
        simp only at h1 h2 h3 h4 h5 h6 hs hfa
        subst h5 h6 hfa
        simp only [curBytes, List.append_nil] at h1 h2 h3 h4
        unfold WriteStream.pollWrite at hs
        simp only at hs
        have hc' : buf.length + 1024 + 16 < 2 ^ 32 := hc
        have h4' : b.length < 1024 := h4
        have hlen : (b ++ buf).length + 16 < 2 ^ 32 := by rw [List.length_append]; omega
        by_cases hle : WRITE_BUF_SIZE ≤ (b ++ buf).length
        · rw [if_pos hle] at hs
          have htake : (b ++ buf).take u32Max = b ++ buf := List.take_of_length_le (by unfold u32Max; omega)
          have hdrop : (b ++ buf).drop u32Max = [] := List.drop_of_length_le (by unfold u32Max; omega)
          rw [htake, hdrop] at hs
          obtain ⟨c, x', e1, e2, e3⟩ := encrypt_next h1 h2 hlen
          simp only [e1, Bool.and_self, if_true] at hs
          refine winv_futWrite (s := ⟨{ enc := x, buffer := b }, wire, accepted, none, flushed, false⟩) (ms := ms ++ [b ++ buf])
            (rem := packageBytes c) (buf := buf) (f := none) (x := x') e3 (by simpa using e2) ?_ ha ?_
          · simp only [List.flatten_append, List.flatten_cons, List.flatten_nil, List.append_nil]
            rw [← List.append_assoc, h3]
          · exact hs
        · rw [if_neg hle] at hs
          cases hs
          have hlt : (b ++ buf).length < 1024 := Nat.lt_of_not_le hle
          refine ⟨rfl, ms, [], by simpa using h1, h2, ?_, hlt, Or.inl ⟨rfl, rfl, x, _, rfl, by simp⟩⟩
          simp only [curBytes, List.append_nil, List.take_length]
          rw [← List.append_assoc, h3]
      · have : buf' = buf := by
          have := hcur (by rw [h5]; simp)
          rw [h5] at this
          simpa using this
        subst this
        rw [h6] at h2 h3
        simp only [List.append_nil, h5, curBytes] at h2 h3
        unfold WriteStream.pollWrite at hs
        rw [h6] at hs
        simp only at hs
        have := winv_futWrite h1 h2 h3 ha hs
        exact ⟨this.1.trans hfa, this.2⟩
      · have := hcur (by rw [h5]; simp)
        rw [h5] at this
        cases this
    | flush =>
      simp only at hs
      rcases h5 with ⟨h5, rfl, x, b, h6, h7⟩ | ⟨buf', x, h5, h6⟩ | ⟨x, f, h5, h6, h7⟩
      · obtain ⟨ws, wire, accepted, cur, flushed, failed⟩ := s
        simp only at h1 h2 h3 h4 h5 h6 hs hfa
        subst h5 h6 hfa
        simp only [curBytes, List.append_nil] at h1 h2 h3 h4
        have h4' : b.length < 1024 := h4
        unfold WriteStream.pollFlush at hs
        simp only at hs
        have htake : b.take u32Max = b := List.take_of_length_le (by unfold u32Max; omega)
        have hdrop : b.drop u32Max = [] := List.drop_of_length_le (by unfold u32Max; omega)
        rw [htake, hdrop] at hs
        simp only [Bool.and_self, if_true] at hs
        by_cases hlt : 0 < b.length
        · rw [if_pos hlt] at hs
          obtain ⟨c, x', e1, e2, e3⟩ := encrypt_next h1 h2 (m := b) (by omega)
          simp only [e1] at hs
          refine winv_flushWrite (s := ⟨{ enc := x, buffer := b }, wire, accepted, none, flushed, false⟩) (ms := ms ++ [b])
            (rem := packageBytes c) (x := x') e3 (by simpa using e2) ?_ ha hs
          simp [h3]
        · rw [if_neg hlt] at hs
          have : b = [] := by
            cases b with
            | nil => rfl
            | cons a b => simp at hlt
          subst this
          simp only [List.append_nil] at h3
          have hw : ∀ as, (pollFutFlush { enc := x, inner := false, cipher := false } as).wire = [] := by
            intro as
            unfold pollFutFlush
            split <;> rfl
          rw [hw, List.append_nil] at hs
          exact winv_futFlush (s := ⟨{ enc := x, buffer := [] }, wire, accepted, none, flushed, false⟩) (f := none)
            (r := pollFutFlush { enc := x, inner := false, cipher := false } as) h1 h2 h3 ha rfl rfl hs
      · have := hcur (by rw [h5]; simp)
        rw [h5] at this
        cases this
      · rw [h6] at h2 h3
        simp only [List.append_nil, h5, curBytes] at h2 h3
        unfold WriteStream.pollFlush at hs
        rw [h6] at hs
        cases f with
        | writing rem' =>
          simp only [remOf] at h7
          subst h7
          simp only at hs
          have := winv_flushWrite h1 h2 h3 ha hs
          exact ⟨this.1.trans hfa, this.2⟩
        | flushing =>
          simp only [remOf] at h7
          subst h7
          rw [List.append_nil] at h1
          simp only at hs
          have hw : ∀ as, (pollFutFlush { enc := x, inner := false, cipher := false, futFlush := some .flushing } as).wire = [] := by
            intro as
            unfold pollFutFlush
            split <;> rfl
          rw [hw, List.append_nil] at hs
          have := winv_futFlush (s := s) (f := some .flushing)
            (r := pollFutFlush { enc := x, inner := false, cipher := false, futFlush := some .flushing } as) h1 h2 h3 ha rfl rfl hs
          exact ⟨this.1.trans hfa, this.2⟩

theorem winv_polls {A : Aead} {key : Bytes} : ∀ (ps : List (Call × List IoAns)) {s s' : Writer}, WInv A key s → s.failed = false →
    (∀ p ∈ ps, SmallCall p.1 ∧ Fine p.2) → s.polls A ps = some s' → s'.failed = false ∧ WInv A key s' := by
  intro ps
  induction ps with
  | nil => intro s s' h hf _ hs; cases hs; exact ⟨hf, h⟩
  | cons p ps ih =>
    intro s s' h hf hps hs
    obtain ⟨c, as⟩ := p
    simp only [Writer.polls] at hs
    cases hx : s.poll A c as with
    | none => simp [hx] at hs
    | some s1 =>
      simp only [hx, Option.bind_some] at hs
      have h1 := hps (c, as) (by simp)
      obtain ⟨h2, h3⟩ := winv_poll h h1.1 h1.2 hx
      exact ih h3 h2 (fun p hp => hps p (by simp [hp])) hs

end Bromine.CryptBytes
