import Verif.Model.ReadFail
import Verif.Lemmas.LayerLink
/-
Reading from a socket that fails, from one that is closed at the same point and from one that is silent from there on: the same, up to there.
-/
namespace Bromine.Layers
open Bromine CryptIO

section
variable {ρ0 ρ1 ρ2 : Type} {R0 : ReadT ρ0} {R1 : ReadT ρ1} {R2 : ReadT ρ2} {e : IoErr}

/-- A poll that is ready has read something, or a package does not decipher. -/
def Fine (p : Poll Unit) (bs : Bytes) : Prop := (p = .ready (.ok ()) → bs ≠ []) ∧ ∀ x, p = .ready (.error x) → x = .invalidData

theorem fine_pending {w : Bool} {bs : Bytes} : Fine (.pending w) bs := ⟨(fun h => by cases h), (fun _ h => by cases h)⟩
theorem fine_panic {bs : Bytes} : Fine .panic bs := ⟨(fun h => by cases h), (fun _ h => by cases h)⟩
theorem fine_ok {u : Unit} {bs : Bytes} (h : bs ≠ []) : Fine (.ready (.ok u)) bs := ⟨fun _ => h, (fun _ h => by cases h)⟩
theorem fine_error {bs : Bytes} : Fine (.ready (.error .invalidData)) bs := ⟨(fun h => by cases h), (fun _ h => by cases h; rfl)⟩

/-- Three polls: the same, or the first waits for ever, the second has come to the end, the third has failed. -/
inductive Three (rel : ρ0 → ρ1 → ρ2 → Prop) (dead : ρ0 → Prop) (R0 : ReadT ρ0) (e : IoErr) (sz want : Nat) : Poll Unit × Bytes × ρ0 → Poll Unit × Bytes × ρ1 → Poll Unit × Bytes × ρ2 → Prop
  | same {p bs r0 r1 r2} : rel r0 r1 r2 → size R0 r0 ≤ sz → (p = .pending true → size R0 r0 < sz) → Fine p bs → Three rel dead R0 e sz want (p, bs, r0) (p, bs, r1) (p, bs, r2)
  | eof {r0 r1 r2} : dead r0 → Three rel dead R0 e sz want (.pending true, [], r0) (.ready (.ok ()), [], r1) (.ready (.error e), [], r2)
  | ended {bs r0 r1 r2} : dead r0 → bs.length < want → Three rel dead R0 e sz want (.pending true, bs, r0) (.ready (.error .unexpectedEof), bs, r1) (.ready (.error e), bs, r2)

/-- `R0` is silent where `R1` ends and `R2` fails with `e`. -/
structure Trio (R0 : ReadT ρ0) (R1 : ReadT ρ1) (R2 : ReadT ρ2) (e : IoErr) (c : Nat) where
  rel : ρ0 → ρ1 → ρ2 → Prop
  dead : ρ0 → Prop
  poll : ∀ {r0 r1 r2 want}, rel r0 r1 r2 → 0 < want → Three rel dead R0 e (size R0 r0) want (R0.pollRead r0 want) (R1.pollRead r1 want) (R2.pollRead r2 want)
  poll_dead : ∀ {r want}, dead r → 0 < want → ∃ r', R0.pollRead r want = (.pending true, [], r') ∧ dead r'
  sizes : ∀ {r0 r1 r2}, rel r0 r1 r2 → size R1 r1 = size R0 r0 ∧ size R2 r2 = size R0 r0 + c

/-- The same for `fill`. -/
inductive ThreeF (rel : ρ0 → ρ1 → ρ2 → Prop) (dead : ρ0 → Prop) (R0 : ReadT ρ0) (e : IoErr) (sz : Nat) (full short : Bytes → Prop) : Fill ρ0 → Fill ρ1 → Fill ρ2 → Prop
  | done {got r0 r1 r2} : rel r0 r1 r2 → size R0 r0 ≤ sz → full got → ThreeF rel dead R0 e sz full short (.done got r0) (.done got r1) (.done got r2)
  | pending {w got r0 r1 r2} : rel r0 r1 r2 → size R0 r0 ≤ sz → (w = true → size R0 r0 < sz) → ThreeF rel dead R0 e sz full short (.pending w got r0) (.pending w got r1) (.pending w got r2)
  | fail {r0 r1 r2} : rel r0 r1 r2 → size R0 r0 ≤ sz → ThreeF rel dead R0 e sz full short (.fail .invalidData r0) (.fail .invalidData r1) (.fail .invalidData r2)
  | panic {r0 r1 r2} : rel r0 r1 r2 → size R0 r0 ≤ sz → ThreeF rel dead R0 e sz full short (.panic r0) (.panic r1) (.panic r2)
  | ended {got r0 r1 r2} : dead r0 → short got → ThreeF rel dead R0 e sz full short (.pending true got r0) (.fail .unexpectedEof r1) (.fail e r2)

theorem Trio.fill {c : Nat} (S : Trio R0 R1 R2 e c) (int : Bool) (n : Nat) : ∀ (m : Nat) {got0 got : Bytes} {r0 : ρ0} {r1 : ρ1} {r2 : ρ2} {sz : Nat}, n - got.length ≤ m → got0 <+: got → S.rel r0 r1 r2 → size R0 r0 ≤ sz →
    ThreeF S.rel S.dead R0 e sz (fun g => n ≤ g.length) (fun g => g.length < n ∧ got0 <+: g) (Layers.fill R0 int n got r0) (Layers.fill R1 int n got r1) (Layers.fill R2 int n got r2) := by
  intro m
  induction m with
  | zero =>
    intro got0 got r0 r1 r2 sz hm hpre h hsz
    unfold Layers.fill
    have : n ≤ got.length := by omega
    simp only [if_pos this]
    exact .done h hsz (by omega)
  | succ m ih =>
    intro got0 got r0 r1 r2 sz hm hpre h hsz
    unfold Layers.fill
    by_cases hn : n ≤ got.length
    · simp only [if_pos hn]
      exact .done h hsz (by omega)
    · simp only [if_neg hn]
      have hp := S.poll (want := n - got.length) h (by omega)
      generalize R0.pollRead r0 (n - got.length) = x0 at hp ⊢
      generalize R1.pollRead r1 (n - got.length) = x1 at hp ⊢
      generalize R2.pollRead r2 (n - got.length) = x2 at hp ⊢
      cases hp with
      | @same p bs r0' r1' r2' g1 g2 g3 g4 =>
        cases p with
        | ready r =>
          cases r with
          | ok u =>
            cases bs with
            | nil => exact absurd rfl (g4.1 rfl)
            | cons b bs => exact ih (by simp only [List.length_append, List.length_cons]; omega) (hpre.trans (List.prefix_append _ _)) g1 (by omega)
          | error x =>
            have := g4.2 x rfl
            subst this
            exact .fail g1 (by omega)
        | pending w => exact .pending g1 (by omega) fun hw => by have := g3 (by rw [hw]); omega
        | panic => exact .panic g1 (by omega)
      | eof g1 =>
        refine .ended g1 ⟨?_, ?_⟩
        · cases int <;> simp <;> omega
        · cases int <;> simpa using hpre
      | @ended bs r0' r1' r2' g1 g2 =>
        refine .ended g1 ?_
        cases int
        · exact ⟨by simp only [Bool.false_eq_true, if_false, List.length_append]; omega, hpre.trans (List.prefix_append _ _)⟩
        · exact ⟨by simp only [if_true]; omega, hpre⟩

theorem Trio.fill_dead {c : Nat} (S : Trio R0 R1 R2 e c) {int : Bool} {n : Nat} {got : Bytes} {r : ρ0} (h : S.dead r) (hs : got.length < n) :
    ∃ r', Layers.fill R0 int n got r = .pending true got r' ∧ S.dead r' := by
  obtain ⟨r', h1, h2⟩ := S.poll_dead (want := n - got.length) h (by omega)
  refine ⟨r', ?_, h2⟩
  unfold Layers.fill
  rw [if_neg (by omega), h1]
  cases int <;> simp

/-- Not a whole package yet. -/
def Short (acc : Bytes) : Prop := acc.length < 4 ∨ acc.length < 4 + beVal (acc.take 4)

theorem Trio.pollPackage {c : Nat} (S : Trio R0 R1 R2 e c) {acc : Bytes} {r0 : ρ0} {r1 : ρ1} {r2 : ρ2} (h : S.rel r0 r1 r2) :
    ThreeF S.rel S.dead R0 e (size R0 r0) (fun _ => True) Short (Layers.pollPackage R0 acc r0) (Layers.pollPackage R1 acc r1) (Layers.pollPackage R2 acc r2) := by
  have body : ∀ {acc : Bytes} {r0' : ρ0} {r1' : ρ1} {r2' : ρ2}, 4 ≤ acc.length → S.rel r0' r1' r2' → size R0 r0' ≤ size R0 r0 →
      ThreeF S.rel S.dead R0 e (size R0 r0) (fun _ => True) Short (Layers.fill R0 false (4 + beVal (acc.take 4)) acc r0') (Layers.fill R1 false (4 + beVal (acc.take 4)) acc r1') (Layers.fill R2 false (4 + beVal (acc.take 4)) acc r2') := by
    intro acc r0' r1' r2' h4 hr hsz
    have hf := S.fill false (4 + beVal (acc.take 4)) _ (got0 := acc) (got := acc) (Nat.le_refl _) List.prefix_rfl hr hsz
    generalize Layers.fill R0 false _ acc r0' = x0 at hf
    generalize Layers.fill R1 false _ acc r1' = x1 at hf
    generalize Layers.fill R2 false _ acc r2' = x2 at hf
    cases hf with
    | done g1 g2 g3 => exact .done g1 g2 trivial
    | pending g1 g2 g3 => exact .pending g1 g2 g3
    | fail g1 g2 => exact .fail g1 g2
    | panic g1 g2 => exact .panic g1 g2
    | ended g1 g2 =>
      obtain ⟨k1, z, rfl⟩ := g2
      refine .ended g1 (.inr ?_)
      rw [List.take_append_of_le_length h4]
      exact k1
  unfold Layers.pollPackage
  by_cases h4 : acc.length < 4
  · simp only [if_pos h4]
    have hf := S.fill true 4 _ (got0 := acc) (got := acc) (Nat.le_refl _) List.prefix_rfl h (Nat.le_refl _)
    generalize Layers.fill R0 true 4 acc r0 = x0 at hf
    generalize Layers.fill R1 true 4 acc r1 = x1 at hf
    generalize Layers.fill R2 true 4 acc r2 = x2 at hf
    cases hf with
    | done g1 g2 g3 => exact body (by omega) g1 g2
    | pending g1 g2 g3 => exact .pending g1 g2 g3
    | fail g1 g2 => exact .fail g1 g2
    | panic g1 g2 => exact .panic g1 g2
    | ended g1 g2 => exact .ended g1 (.inl g2.1)
  · simp only [if_neg h4]
    exact body (by omega) h (Nat.le_refl _)

theorem Trio.package_dead {c : Nat} (S : Trio R0 R1 R2 e c) {acc : Bytes} {r : ρ0} (h : S.dead r) (hs : Short acc) : ∃ r', Layers.pollPackage R0 acc r = .pending true acc r' ∧ S.dead r' := by
  unfold Layers.pollPackage
  by_cases h4 : acc.length < 4
  · obtain ⟨r', h1, h2⟩ := S.fill_dead (int := true) h h4
    exact ⟨r', by rw [if_pos h4, h1], h2⟩
  · rw [if_neg h4]
    exact S.fill_dead h (hs.resolve_left h4)

theorem Trio.futRead {c : Nat} (S : Trio R0 R1 R2 e c) (A : Aead) {rs : ReadStream} {r0 : ρ0} {r1 : ρ1} {r2 : ρ2} (h : S.rel r0 r1 r2) {want total : Nat} (hw : 0 < want) (pre : Bytes) (h0 : pre.length < total) (hf : rs.fut ≠ none) (hrem : rs.remaining = []) :
    Three (fun (s0 : ReadStream × ρ0) (s1 : ReadStream × ρ1) (s2 : ReadStream × ρ2) => s1.1 = s0.1 ∧ s2.1 = s0.1 ∧ (s0.1.fut ≠ none → s0.1.remaining = []) ∧ S.rel s0.2 s1.2 s2.2)
      (fun s => s.1.remaining = [] ∧ (∃ acc, s.1.fut = some (.reading acc) ∧ Short acc) ∧ S.dead s.2) (encryptedR R0 A) e (size R0 r0) total
      ((fun x => (x.1, pre ++ x.2.1, x.2.2)) (pollFutRead R0 A rs r0 want)) ((fun x => (x.1, pre ++ x.2.1, x.2.2)) (pollFutRead R1 A rs r1 want))
      ((fun x => (x.1, pre ++ x.2.1, x.2.2)) (pollFutRead R2 A rs r2 want)) := by
  unfold pollFutRead
  cases hfut : rs.fut with
  | none => exact absurd hfut hf
  | some f =>
    cases f with
    | finished => exact .same ⟨rfl, rfl, fun _ => hrem, h⟩ (Nat.le_refl _) (by intro h; cases h) fine_panic
    | reading acc =>
      dsimp only
      have hp := S.pollPackage (acc := acc) h
      generalize Layers.pollPackage R0 acc r0 = x0 at hp
      generalize Layers.pollPackage R1 acc r1 = x1 at hp
      generalize Layers.pollPackage R2 acc r2 = x2 at hp
      cases hp with
      | done g1 g2 g3 =>
        dsimp only
        simp only [Decryptor.decrypt]
        rcases A.dec _ _ _ with _ | p
        · exact .same ⟨rfl, rfl, fun _ => hrem, g1⟩ g2 (by intro h; cases h) fine_error
        · refine .same ⟨rfl, rfl, fun h => absurd rfl h, g1⟩ g2 ?_ ?_
          · dsimp only
            split <;> (intro h; cases h)
          · dsimp only
            split
            · rename_i hle
              refine fine_ok fun h => ?_
              have := congrArg List.length h
              simp only [List.length_append, List.length_take, List.length_nil] at this hle
              omega
            · exact fine_pending
      | pending g1 g2 g3 => exact .same ⟨rfl, rfl, fun _ => hrem, g1⟩ g2 (fun h => g3 (by cases h; rfl)) fine_pending
      | fail g1 g2 => exact .same ⟨rfl, rfl, fun _ => hrem, g1⟩ g2 (by intro h; cases h) fine_error
      | panic g1 g2 => exact .same ⟨rfl, rfl, fun _ => hrem, g1⟩ g2 (by intro h; cases h) fine_panic
      | ended g1 g2 => exact .ended ⟨hrem, ⟨_, rfl, g2⟩, g1⟩ (by simpa using h0)

/-- A layer around. -/
def Trio.layer {c : Nat} (S : Trio R0 R1 R2 e c) (A : Aead) : Trio (encryptedR R0 A) (encryptedR R1 A) (encryptedR R2 A) e c where
  rel s0 s1 s2 := s1.1 = s0.1 ∧ s2.1 = s0.1 ∧ (s0.1.fut ≠ none → s0.1.remaining = []) ∧ S.rel s0.2 s1.2 s2.2
  dead s := s.1.remaining = [] ∧ (∃ acc, s.1.fut = some (.reading acc) ∧ Short acc) ∧ S.dead s.2
  poll := by
    rintro ⟨rs, r0⟩ ⟨rs1, r1⟩ ⟨rs2, r2⟩ want ⟨h1, h2, h3, h4⟩ h0
    dsimp only at h1 h2 h3 h4
    subst h1 h2
    change Three _ _ _ _ (size R0 r0) _ (pollRead R0 A (rs2, r0) want) (pollRead R1 A (rs2, r1) want) (pollRead R2 A (rs2, r2) want)
    simp only [pollRead]
    cases hf : rs2.fut with
    | some f =>
      have := S.futRead A (rs := rs2) h4 (want := want) h0 [] (by simpa using h0) (by rw [hf]; simp) (h3 (by rw [hf]; simp))
      simpa using this
    | none =>
      dsimp only
      by_cases hlt : (rs2.remaining.take want).length < want
      · simp only [if_pos hlt]
        exact S.futRead A (rs := { rs2 with remaining := rs2.remaining.drop want, fut := some (.reading []) }) h4 (want := want - (rs2.remaining.take want).length) (by omega) (rs2.remaining.take want) hlt (by simp)
          (by rw [List.length_take] at hlt; exact List.drop_of_length_le (by omega))
      · simp only [if_neg hlt]
        exact .same ⟨rfl, rfl, fun h => absurd rfl h, h4⟩ (Nat.le_refl _) (by intro h; cases h) (fine_ok fun h => by rw [h] at hlt; simp at hlt; omega)
  poll_dead := by
    rintro ⟨rs, r⟩ want ⟨h1, ⟨acc, h2, h3⟩, h4⟩ h0
    dsimp only at h1 h2 h4
    obtain ⟨r', k1, k2⟩ := S.package_dead h4 h3
    refine ⟨({ rs with fut := some (.reading acc) }, r'), ?_, h1, ⟨acc, rfl, h3⟩, k2⟩
    change pollRead R0 A (rs, r) want = _
    simp only [pollRead, h2, pollFutRead, k1]
  sizes h := S.sizes h.2.2.2

theorem Trio.drive_dead {c : Nat} (S : Trio R0 R1 R2 e c) {int : Bool} {n : Nat} : ∀ (fuel : Nat) {got : Bytes} {r : ρ0}, S.dead r → got.length < n → Layers.drive R0 int n fuel got r = .hang := by
  intro fuel
  induction fuel with
  | zero => intro got r _ _; rfl
  | succ fuel ih =>
    intro got r h hs
    obtain ⟨r', h1, h2⟩ := S.fill_dead (int := int) h hs
    unfold Layers.drive
    rw [h1]
    exact ih h2 hs

/-- Three results: the same, or: silence, end, failure. -/
inductive ThreeO {α : Type} (rel : ρ0 → ρ1 → ρ2 → Prop) (e : IoErr) : Outcome (α × ρ0) → Outcome (α × ρ1) → Outcome (α × ρ2) → Prop
  | ok {a r0 r1 r2} : rel r0 r1 r2 → ThreeO rel e (.ok (a, r0)) (.ok (a, r1)) (.ok (a, r2))
  | err {x} : ThreeO rel e (.err x) (.err x) (.err x)
  | panic : ThreeO rel e .panic .panic .panic
  | hang : ThreeO rel e .hang .hang .hang
  | ended : ThreeO rel e .hang (.err (.io .unexpectedEof)) (.err (.io e))

theorem Trio.drive {c : Nat} (S : Trio R0 R1 R2 e c) (int : Bool) (n : Nat) : ∀ (fuel fuel1 fuel2 : Nat) {got : Bytes} {r0 : ρ0} {r1 : ρ1} {r2 : ρ2}, S.rel r0 r1 r2 → size R0 r0 < fuel → size R1 r1 < fuel1 → size R2 r2 < fuel2 →
    ThreeO S.rel e (Layers.drive R0 int n fuel got r0) (Layers.drive R1 int n fuel1 got r1) (Layers.drive R2 int n fuel2 got r2) := by
  intro fuel
  induction fuel with
  | zero => intro _ _ _ _ _ _ _ h; omega
  | succ fuel ih =>
    intro fuel1 fuel2 got r0 r1 r2 h h0 h1 h2
    obtain ⟨f1, rfl⟩ : ∃ m, fuel1 = m + 1 := ⟨fuel1 - 1, by omega⟩
    obtain ⟨f2, rfl⟩ : ∃ m, fuel2 = m + 1 := ⟨fuel2 - 1, by omega⟩
    have hf := S.fill int n _ (got0 := got) (got := got) (Nat.le_refl _) List.prefix_rfl h (Nat.le_refl _)
    have hsz := S.sizes h
    unfold Layers.drive
    generalize Layers.fill R0 int n got r0 = x0 at hf
    generalize Layers.fill R1 int n got r1 = x1 at hf
    generalize Layers.fill R2 int n got r2 = x2 at hf
    cases hf with
    | done g1 g2 g3 => exact .ok g1
    | @pending w got' r0' r1' r2' g1 g2 g3 =>
      cases w with
      | false => exact .hang
      | true =>
        have := g3 rfl
        have := S.sizes g1
        exact ih _ _ g1 (by omega) (by omega) (by omega)
    | fail g1 g2 => exact .err
    | panic g1 g2 => exact .panic
    | ended g1 g2 =>
      dsimp only
      rw [S.drive_dead fuel g1 g2.1]
      exact .ended

theorem ThreeO.bind {α β : Type} {rel : ρ0 → ρ1 → ρ2 → Prop} {o0 : Outcome (α × ρ0)} {o1 : Outcome (α × ρ1)} {o2 : Outcome (α × ρ2)} {f0 : α × ρ0 → Outcome (β × ρ0)} {f1 : α × ρ1 → Outcome (β × ρ1)}
    {f2 : α × ρ2 → Outcome (β × ρ2)} (h : ThreeO rel e o0 o1 o2) (hf : ∀ a r0 r1 r2, rel r0 r1 r2 → ThreeO rel e (f0 (a, r0)) (f1 (a, r1)) (f2 (a, r2))) : ThreeO rel e (o0 >>= f0) (o1 >>= f1) (o2 >>= f2) := by
  cases h with
  | ok g => exact hf _ _ _ _ g
  | err => exact .err
  | panic => exact .panic
  | hang => exact .hang
  | ended => exact .ended

theorem ThreeO.const {α β : Type} {rel : ρ0 → ρ1 → ρ2 → Prop} (o : Outcome α) {f0 : α → Outcome (β × ρ0)} {f1 : α → Outcome (β × ρ1)}
    {f2 : α → Outcome (β × ρ2)} (hf : ∀ a, ThreeO rel e (f0 a) (f1 a) (f2 a)) : ThreeO rel e (o >>= f0) (o >>= f1) (o >>= f2) := by
  cases o with
  | ok a => exact hf a
  | err => exact .err
  | panic => exact .panic
  | hang => exact .hang

theorem Trio.event {c : Nat} (S : Trio R0 R1 R2 e c) (checks : Bool) {r0 : ρ0} {r1 : ρ1} {r2 : ρ2} (h : S.rel r0 r1 r2) :
    ThreeO S.rel e (Event.fromAsyncRead (source R0) checks r0) (Event.fromAsyncRead (source R1) checks r1) (Event.fromAsyncRead (source R2) checks r2) := by
  have rd : ∀ int n {r0 r1 r2}, S.rel r0 r1 r2 → ThreeO S.rel e (Layers.drive R0 int n (size R0 r0 + 1) [] r0) (Layers.drive R1 int n (size R1 r1 + 1) [] r1) (Layers.drive R2 int n (size R2 r2 + 1) [] r2) :=
    fun int n {r0 r1 r2} h => S.drive int n _ _ _ h (Nat.lt_succ_self _) (Nat.lt_succ_self _) (Nat.lt_succ_self _)
  unfold Event.fromAsyncRead
  refine ThreeO.bind (rd true 8 h) fun tl r0 r1 r2 h => ?_
  refine ThreeO.bind (rd true 2 h) fun hl r0 r1 r2 h => ?_
  refine ThreeO.const _ fun dl => ?_
  refine ThreeO.bind (rd false _ h) fun hb r0 r1 r2 h => ?_
  refine ThreeO.const _ fun hd => ?_
  refine ThreeO.const _ fun _ => ?_
  refine ThreeO.bind (rd false _ h) fun buf r0 r1 r2 h => ?_
  exact .ok h

theorem Trio.loop {c : Nat} (S : Trio R0 R1 R2 e c) (checks : Bool) : ∀ (fuel : Nat) {r0 : ρ0} {r1 : ρ1} {r2 : ρ2}, S.rel r0 r1 r2 →
    (readLoop (source R2) checks fuel r2 = readLoop (source R1) checks fuel r1 ∧ readLoop (source R0) checks fuel r0 = readLoop (source R1) checks fuel r1) ∨
    ∃ es, readLoop (source R0) checks fuel r0 = (es, .hang) ∧ readLoop (source R1) checks fuel r1 = (es, .err (.io .unexpectedEof)) ∧ readLoop (source R2) checks fuel r2 = (es, .err (.io e)) := by
  intro fuel
  induction fuel with
  | zero => intro r0 r1 r2 _; exact .inl ⟨rfl, rfl⟩
  | succ fuel ih =>
    intro r0 r1 r2 h
    have he := S.event checks h
    unfold readLoop
    generalize Event.fromAsyncRead (source R0) checks r0 = x0 at he
    generalize Event.fromAsyncRead (source R1) checks r1 = x1 at he
    generalize Event.fromAsyncRead (source R2) checks r2 = x2 at he
    cases he with
    | @ok a r0' r1' r2' g =>
      dsimp only
      rcases ih g with ⟨h1, h2⟩ | ⟨es, h1, h2, h3⟩
      · exact .inl ⟨by rw [h1], by rw [h2]⟩
      · exact .inr ⟨a :: es, by rw [h1], by rw [h2], by rw [h3]⟩
    | err => exact .inl ⟨rfl, rfl⟩
    | panic => exact .inl ⟨rfl, rfl⟩
    | hang => exact .inl ⟨rfl, rfl⟩
    | ended => exact .inr ⟨[], rfl, rfl, rfl⟩

end

/-- The sockets. -/
def socketTrio (e : IoErr) (after : Script) : Trio socketR socketR socketF e after.chunks.length where
  rel s0 s1 s2 := s0.closed = false ∧ s1 = { s0 with closed := true } ∧ s2 = { chunks := s0.chunks, err := some e, after := after }
  dead s := s.closed = false ∧ s.chunks = []
  poll := by
    rintro ⟨cs, cl⟩ s1 s2 want ⟨h1, rfl, rfl⟩ h0
    dsimp only at h1
    subst h1
    cases cs with
    | nil => exact .eof ⟨rfl, rfl⟩
    | cons x cs =>
      cases x with
      | pending => exact .same ⟨rfl, rfl, rfl⟩ (by simp [size, socketR]) (fun _ => by simp [size, socketR]) fine_pending
      | data b bs =>
        refine .same ⟨rfl, rfl, rfl⟩ ?_ (by intro h; cases h) (fine_ok fun h => by have := congrArg List.length h; simp only [List.length_take, List.length_cons, List.length_nil] at this; omega)
        simp only [size, socketR]
        cases (b :: bs).drop want <;> simp [pushRest]
  poll_dead := by
    rintro ⟨cs, cl⟩ want ⟨h1, h2⟩ h0
    dsimp only at h1 h2
    subst h1 h2
    exact ⟨_, rfl, rfl, rfl⟩
  sizes := by
    rintro s0 s1 s2 ⟨h1, rfl, rfl⟩
    exact ⟨rfl, by simp [size, socketF, socketR]⟩

/-- All layers. -/
def layersTrio (A : Aead) (e : IoErr) (after : Script) : (n : Nat) → Trio (layersR A n) (layersR A n) (layersF A n) e after.chunks.length
  | 0 => socketTrio e after
  | n + 1 => (layersTrio A e after n).layer A

theorem trio_start (A : Aead) (e : IoErr) (after : Script) (cs : List Chunk) : ∀ ls : List Layer,
    (layersTrio A e after ls.length).rel (startR { chunks := cs, closed := false } ls) (startR { chunks := cs, closed := true } ls) (startF { chunks := cs, err := some e, after := after } ls) := by
  intro ls
  induction ls with
  | nil => exact ⟨rfl, rfl, rfl⟩
  | cons l ls ih => exact ⟨rfl, rfl, fun h => absurd rfl h, ih⟩

end Bromine.Layers
