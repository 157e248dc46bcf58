import Verif.Lemmas.LayerLink
import Verif.Spec.Wakeups
/-
Wake-ups of polls on encrypted layers.
-/
namespace Bromine.Layers
open Bromine CryptIO Spec

/-! ### Writing -/

/-- Pending polls have been registered at the socket. -/
structure WokenW {τ B : Type} (T : WriteT τ B) : Prop where
  write : ∀ t buf b t', T.pollWrite t buf = (.pending b, t') → b = true
  flush : ∀ t b t', T.pollFlush t = (.pending b, t') → b = true

section
variable {τ B : Type} {T : WriteT τ B} (h : WokenW T)
include h

theorem WokenW.writeAll : ∀ (n : Nat) (t : τ) (rem : Bytes), rem.length ≤ n → ∀ {b x}, Layers.writeAll T t rem = (.pending b, x) → b = true := by
  intro n
  induction n with
  | zero =>
    intro t rem hn b x hx
    have : rem = [] := List.eq_nil_of_length_eq_zero (by omega)
    subst this
    unfold Layers.writeAll at hx
    simp at hx
  | succ n ih =>
    intro t rem hn b x hx
    unfold Layers.writeAll at hx
    split at hx
    · simp at hx
    · rename_i hne
      have hpos : 0 < rem.length := List.length_pos_iff.2 hne
      split at hx
      · simp at hx
      · exact ih _ _ (by rw [List.length_drop]; omega) hx
      · simp at hx
      · rename_i w t' hp
        simp only [Prod.mk.injEq, Poll.pending.injEq] at hx
        rw [← hx.1]
        exact h.write _ _ _ _ hp
      · simp at hx

theorem WokenW.futWrite {ws : WriteStream} {t : τ} {rem : Bytes} {len : Nat} {b x} (hx : pollFutWrite T ws t rem len = (.pending b, x)) : b = true := by
  unfold pollFutWrite at hx
  split at hx
  · simp at hx
  · simp at hx
  · rename_i hw
    simp only [Prod.mk.injEq, Poll.pending.injEq] at hx
    rw [← hx.1]
    exact h.writeAll _ _ _ (Nat.le_refl _) hw
  · simp at hx

theorem WokenW.futFlush {ws : WriteStream} {t : τ} {b x} (hx : pollFutFlush T ws t = (.pending b, x)) : b = true := by
  unfold pollFutFlush at hx
  split at hx
  · simp at hx
  · rename_i hw
    simp only [Prod.mk.injEq, Poll.pending.injEq] at hx
    rw [← hx.1]
    exact h.flush _ _ _ hw
  · simp at hx

theorem WokenW.flushWrite {ws : WriteStream} {t : τ} {rem : Bytes} {b x} (hx : pollFlushWrite T ws t rem = (.pending b, x)) : b = true := by
  unfold pollFlushWrite at hx
  split at hx
  · exact h.futFlush hx
  · simp at hx
  · rename_i hw
    simp only [Prod.mk.injEq, Poll.pending.injEq] at hx
    rw [← hx.1]
    exact h.writeAll _ _ _ (Nat.le_refl _) hw
  · simp at hx

theorem WokenW.layer (A : Aead) : WokenW (encryptedW T A) where
  write := by
    rintro ⟨ws, t⟩ buf b t' hx
    simp only [encryptedW, pollWrite] at hx
    split at hx
    · exact h.futWrite hx
    · split at hx
      · split at hx
        · split at hx
          · exact h.futWrite hx
          · simp at hx
        · simp at hx
      · simp at hx
  flush := by
    rintro ⟨ws, t⟩ b t' hx
    simp only [encryptedW, pollFlush] at hx
    split at hx
    · exact h.flushWrite hx
    · exact h.futFlush hx
    · split at hx
      · split at hx
        · split at hx
          · exact h.flushWrite hx
          · simp at hx
        · exact h.futFlush hx
      · simp at hx

end

theorem wokenW_socket : WokenW socket where
  write := by
    intro t buf b t' hx
    simp only [socket] at hx
    split at hx <;> simp at hx <;> exact hx.1
  flush := by
    intro t b t' hx
    simp only [socket] at hx
    split at hx <;> simp at hx <;> exact hx.1

theorem wokenW (A : Aead) : ∀ n, WokenW (layersW A n)
  | 0 => wokenW_socket
  | n + 1 => (wokenW A n).layer A

/-! ### Reading -/

theorem fill_pending {ρ : Type} {R : ReadT ρ} {int : Bool} {n : Nat} : ∀ (k : Nat) {got : Bytes} {r : ρ} {b : Bool} {got' : Bytes} {r' : ρ}, n - got.length ≤ k →
    fill R int n got r = .pending b got' r' → ∃ r0 want bs, R.pollRead r0 want = (.pending b, bs, r') ∧ 0 < want := by
  intro k
  induction k with
  | zero =>
    intro got r b got' r' hk hx
    unfold fill at hx
    rw [if_pos (by omega)] at hx
    cases hx
  | succ k ih =>
    intro got r b got' r' hk hx
    unfold fill at hx
    split at hx
    · cases hx
    · split at hx
      · cases hx
      · exact ih (by simp only [List.length_append, List.length_cons]; omega) hx
      · cases hx
      · rename_i w bs r'' hp
        cases hx
        exact ⟨_, _, _, hp, by omega⟩
      · cases hx

theorem package_pending {ρ : Type} {R : ReadT ρ} {acc : Bytes} {r : ρ} {b : Bool} {acc' : Bytes} {r' : ρ} (hx : pollPackage R acc r = .pending b acc' r') :
    ∃ r0 want bs, R.pollRead r0 want = (.pending b, bs, r') ∧ 0 < want := by
  unfold pollPackage at hx
  split at hx
  · split at hx
    · exact fill_pending _ (Nat.le_refl _) hx
    · exact fill_pending _ (Nat.le_refl _) hx
  · exact fill_pending _ (Nat.le_refl _) hx

/-- A pending read of one more layer. -/
theorem pending_read {ρ : Type} {R : ReadT ρ} {A : Aead} {s s' : ReadStream × ρ} {want : Nat} {b : Bool} {bs : Bytes} (hx : pollRead R A s want = (.pending b, bs, s')) :
    (b = false ∧ s'.1.fut = none ∧ s'.1.remaining = []) ∨ ((∃ acc, s'.1.fut = some (.reading acc)) ∧ ∃ r0 want bs, R.pollRead r0 want = (.pending b, bs, s'.2) ∧ 0 < want) := by
  have key : ∀ {rs : ReadStream} {r : ρ} {want : Nat} {bs : Bytes}, pollFutRead R A rs r want = (.pending b, bs, s') →
      (b = false ∧ s'.1.fut = none ∧ s'.1.remaining = []) ∨ ((∃ acc, s'.1.fut = some (.reading acc)) ∧ ∃ r0 want bs, R.pollRead r0 want = (.pending b, bs, s'.2) ∧ 0 < want) := by
    intro rs r want bs hx
    unfold pollFutRead at hx
    split at hx
    · split at hx
      · rename_i hp
        simp only [Prod.mk.injEq, Poll.pending.injEq] at hx
        obtain ⟨rfl, -, rfl⟩ := hx
        exact .inr ⟨⟨_, rfl⟩, package_pending hp⟩
      · simp at hx
      · simp at hx
      · split at hx
        · simp at hx
        · simp only [Prod.mk.injEq] at hx
          obtain ⟨h1, -, rfl⟩ := hx
          split at h1
          · cases h1
          · rename_i hlt
            cases h1
            exact .inl ⟨rfl, rfl, List.drop_of_length_le (by omega)⟩
    · simp at hx
  obtain ⟨rs, r⟩ := s
  simp only [pollRead] at hx
  split at hx
  · exact key hx
  · split at hx
    · simp only [Prod.mk.injEq] at hx
      exact key (Prod.ext hx.1 (Prod.ext rfl hx.2.2))
    · simp at hx

theorem pending_layers (A : Aead) : ∀ (n : Nat) {s s' : RState n} {want : Nat} {b : Bool} {bs : Bytes}, (layersR A n).pollRead s want = (.pending b, bs, s') →
    (b = true ↔ AllReading n s') ∧ (b = false ↔ Stalled n s') := by
  intro n
  induction n with
  | zero =>
    intro s s' want b bs hx
    have : b = true := by
      have hx : socketR.pollRead (s : Script) want = ((.pending b, bs, s') : Poll Unit × Bytes × Script) := hx
      simp only [socketR] at hx
      split at hx
      · split at hx
        · simp at hx
        · simp at hx; exact hx.1
      · simp at hx; exact hx.1
      · simp at hx
    subst this
    simp [AllReading, Stalled]
  | succ n ih =>
    rintro s ⟨rs', r'⟩ want b bs hx
    rcases pending_read (R := layersR A n) (A := A) hx with ⟨rfl, h1, h2⟩ | ⟨⟨acc, h1⟩, r0, want', bs', h2, -⟩
    · simp only at h1 h2
      simp [AllReading, Stalled, h1, h2]
    · have := ih h2
      simp only at h1
      simp [AllReading, Stalled, h1, this]

/-! ### Reads of any sizes -/

section
variable {ρ : Type} {R : ReadT ρ} {closed : Bool} (S : Receives R closed) (A : Aead) (l : Layer)

/-- A read of the outermost layer wants more than `rem`, which is left; the next package is number `i`, with the plaintext `m`. -/
def Asking (i : Nat) (rem m rest : Bytes) (s : ReadStream × ρ) : Prop :=
  ∃ acc p', pkg A l i m = acc ++ p' ∧ S.at_ i p' (some rest) s.2 ∧
    ((s.1 = { dec := decAt l i, remaining := rem } ∧ acc = []) ∨ (s.1 = { dec := decAt l i, fut := some (.reading acc) } ∧ rem = []))

/-- The result of a poll of such a read. -/
inductive Asked (i : Nat) (rem m rest : Bytes) (want : Nat) (s : ReadStream × ρ) : Poll Unit × Bytes × ReadStream × ρ → Prop
  | pending {s'} : Asking S A l i [] m rest s' → size R s'.2 < size R s.2 → Asked i rem m rest want s (.pending true, rem, s')
  | ready {r'} : want ≤ rem.length + m.length → S.idle (i + 1) r' rest → size R r' ≤ size R s.2 →
      Asked i rem m rest want s (.ready (.ok ()), (rem ++ m).take want, { dec := decAt l (i + 1), remaining := (rem ++ m).drop want }, r')
  | lost {s'} : rem.length + m.length < want → Asked i rem m rest want s (.pending false, rem ++ m, s')

variable {S A l}

theorem asked {i : Nat} {rem m rest : Bytes} {want : Nat} {s : ReadStream × ρ} (hm : m.length + 16 < 2 ^ 32) (hw : rem.length < want) (h : Asking S A l i rem m rest s) :
    Asked S A l i rem m rest want s (pollRead R A s want) := by
  obtain ⟨rs, r⟩ := s
  obtain ⟨acc, p', h1, h2, h3⟩ := h
  obtain ⟨hc, hd⟩ := decrypt_pkg (A := A) (l := l) (i := i) hm
  have hpk := S.pollPackage h1 hc h2
  have hpoll : pollRead R A (rs, r) want = ((pollFutRead R A { dec := decAt l i, fut := some (.reading acc) } r (want - rem.length)).1,
      rem ++ (pollFutRead R A { dec := decAt l i, fut := some (.reading acc) } r (want - rem.length)).2.1,
      (pollFutRead R A { dec := decAt l i, fut := some (.reading acc) } r (want - rem.length)).2.2) := by
    rcases h3 with ⟨g1, rfl⟩ | ⟨g1, rfl⟩
    · dsimp only at g1
      subst g1
      simp only [pollRead]
      rw [List.take_of_length_le (by omega), List.drop_of_length_le (by omega), if_pos hw]
    · dsimp only at g1
      subst g1
      simp [pollRead]
  rw [hpoll]
  unfold pollFutRead
  dsimp only at hpk h2 ⊢
  generalize Layers.pollPackage R acc r = x at hpk
  cases hpk with
  | fail g1 => cases g1
  | @pending acc' p'' r' g1 g2 g3 g4 =>
    have hsz : size R r' < size R r := by
      rcases g4 with g4 | ⟨g4, -⟩
      · exact g4
      · cases g4
    simp only [List.append_nil]
    exact .pending ⟨acc', p'', g1, g3, .inr ⟨rfl, rfl⟩⟩ hsz
  | @done rest' r' g1 g2 g3 =>
    cases g1
    simp only [hd, List.nil_append]
    by_cases hle : want ≤ rem.length + m.length
    · have := Asked.ready (S := S) (A := A) (l := l) (i := i) (rem := rem) (m := m) (rest := rest) (s := (rs, r)) hle g2 g3
      rw [List.take_append, List.take_of_length_le (by omega : rem.length ≤ want), List.drop_append, List.drop_of_length_le (by omega : rem.length ≤ want), List.nil_append] at this
      rw [if_pos (by omega)]
      exact this
    · rw [if_neg (by omega), List.take_of_length_le (by omega : m.length ≤ want - rem.length)]
      exact .lost (by omega)

/-- Such a read, driven to its end. -/
theorem drive_asking {i : Nat} {m rest : Bytes} {n : Nat} (hm : m.length + 16 < 2 ^ 32) : ∀ (fuel : Nat) {got rem : Bytes} {s : ReadStream × ρ}, size R s.2 < fuel → got.length + rem.length < n →
    Asking S A l i rem m rest s →
    if n ≤ got.length + rem.length + m.length then
      ∃ r', Layers.drive (encryptedR R A) false n fuel got s =
        .ok (got ++ (rem ++ m).take (n - got.length), { dec := decAt l (i + 1), remaining := (rem ++ m).drop (n - got.length) }, r') ∧ S.idle (i + 1) r' rest
    else Layers.drive (encryptedR R A) false n fuel got s = .hang := by
  intro fuel
  induction fuel with
  | zero => intro got rem s h; omega
  | succ fuel ih =>
    intro got rem s hf hn h
    have hp := asked (want := n - got.length) hm (by omega) h
    have hdr : Layers.drive (encryptedR R A) false n (fuel + 1) got s =
        match (match pollRead R A s (n - got.length) with
          | (.ready (.ok _), [], r) => .fail .unexpectedEof r
          | (.ready (.ok _), b :: bs, r) => fill (encryptedR R A) false n (got ++ b :: bs) r
          | (.ready (.error e), _, r) => .fail e r
          | (.pending w, bs, r) => .pending w (got ++ bs) r
          | (.panic, _, r) => .panic r : Fill (ReadStream × ρ)) with
        | .done got r => .ok (got, r)
        | .pending true got r => Layers.drive (encryptedR R A) false n fuel got r
        | .pending false _ _ => .hang
        | .fail e _ => .err (.io e)
        | .panic _ => .panic := by
      conv => lhs; unfold Layers.drive Layers.fill
      rw [if_neg (by omega : ¬ n ≤ got.length), show (encryptedR R A).pollRead s (n - got.length) = pollRead R A s (n - got.length) from rfl]
      generalize pollRead R A s (n - got.length) = x
      obtain ⟨p, bs, r⟩ := x
      cases p with
      | ready e =>
        cases e with
        | error e => rfl
        | ok u =>
          cases bs with
          | nil => rfl
          | cons b bs =>
            dsimp only
            generalize fill (encryptedR R A) false n (got ++ b :: bs) r = y
            cases y with
            | pending w => cases w <;> rfl
            | _ => rfl
      | pending w => cases w <;> rfl
      | panic => rfl
    rw [hdr]
    generalize pollRead R A s (n - got.length) = x at hp
    cases hp with
    | @pending s' g1 g2 =>
      dsimp only
      have := ih (got := got ++ rem) (rem := []) (s := s') (by omega) (by simp; omega) g1
      simp only [List.length_append, List.length_nil, List.nil_append, Nat.add_zero] at this
      split
      · rename_i hle
        rw [if_pos hle] at this
        obtain ⟨r', k1, k2⟩ := this
        refine ⟨r', ?_, k2⟩
        refine k1.trans ?_
        rw [List.take_append, List.take_of_length_le (by omega : rem.length ≤ n - got.length), List.drop_append, List.drop_of_length_le (by omega : rem.length ≤ n - got.length), List.nil_append,
          List.append_assoc, Nat.sub_add_eq]
      · rename_i hle
        rw [if_neg hle] at this
        exact this
    | @ready r' g1 g2 _ =>
      rw [if_pos (by omega)]
      refine ⟨r', ?_, g2⟩
      have hl : ((rem ++ m).take (n - got.length)).length = n - got.length := by rw [List.length_take, List.length_append]; omega
      cases hx : (rem ++ m).take (n - got.length) with
      | nil => rw [hx] at hl; simp at hl; omega
      | cons b bs =>
        dsimp only
        unfold Layers.fill
        rw [if_pos (by rw [List.length_append, ← hx, hl]; omega)]
    | lost g1 =>
      rw [if_neg (by omega)]

/-- A read when no package follows. -/
theorem reads_nothing {n : Nat} : ∀ (fuel : Nat) {got : Bytes} {s : ReadStream × ρ}, size R s.2 < fuel ∨ closed = false → got.length + s.1.remaining.length < n →
    (s.1.fut = none ∨ (s.1.fut = some (.reading []) ∧ s.1.remaining = [])) → S.empty s.2 →
    Layers.drive (encryptedR R A) false n fuel got s = if closed then .err (.io .unexpectedEof) else .hang := by
  intro fuel
  induction fuel with
  | zero =>
    intro got s h
    rcases h with h | rfl
    · omega
    · intros; rfl
  | succ fuel ih =>
    rintro got ⟨⟨dec, rem, fut⟩, r⟩ hf hn h1 h2
    dsimp only at hf hn h1 h2
    have hp := S.poll_empty h2 (show 0 < 4 by omega)
    have hpoll : pollRead R A ({ dec := dec, remaining := rem, fut := fut }, r) (n - got.length) =
        ((pollFutRead R A { dec := dec, fut := some (.reading []) } r (n - got.length - rem.length)).1,
          rem ++ (pollFutRead R A { dec := dec, fut := some (.reading []) } r (n - got.length - rem.length)).2.1,
          (pollFutRead R A { dec := dec, fut := some (.reading []) } r (n - got.length - rem.length)).2.2) := by
      rcases h1 with rfl | ⟨rfl, rfl⟩
      · simp only [pollRead]
        rw [List.take_of_length_le (by omega), List.drop_of_length_le (by omega), if_pos (by omega)]
      · simp [pollRead]
    unfold Layers.drive Layers.fill
    rw [if_neg (by omega)]
    simp only [encryptedR]
    rw [hpoll]
    unfold pollFutRead pollPackage Layers.fill
    simp only [List.length_nil, Nat.zero_lt_succ, if_true, Nat.sub_zero]
    rw [if_neg (by omega)]
    generalize R.pollRead r 4 = x at hp
    cases hp with
    | eof g => subst g; rfl
    | error g => subst g; rfl
    | @pending r' g1 g2 =>
      simp only [List.append_nil, Bool.false_eq_true, if_false]
      refine ih ?_ (by simp; omega) (.inr ⟨rfl, rfl⟩) g1
      rcases g2 with g2 | ⟨-, g2, -⟩
      · rcases hf with hf | hf
        · exact .inl (by dsimp only; omega)
        · exact .inr hf
      · exact .inr g2

end

/-! ### Packages that are torn by the layer below -/

section
variable {ρ : Type} {R : ReadT ρ} {closed : Bool} (S : Receives R closed) (A : Aead) (l : Layer)

/-- Nothing is left of packages of this layer, and the next two packages carry `p` and `q`. -/
def Torn (p q rest : Bytes) (s : ReadStream × ReadStream × ρ) : Prop :=
  (s.1.remaining = [] ∧ (s.1.fut = none ∨ s.1.fut = some (.reading [])) ∧ Asking S A l 0 [] p (S.wrap 1 (pkg A l 1 q) ++ rest) s.2) ∨
  (s.1.remaining = [] ∧ s.1.fut = some (.reading p) ∧ 4 ≤ p.length ∧ Asking S A l 1 [] q rest s.2)

variable {S A l}

/-- `read_u32` or `read_exact` of the layer above, when the next package is `m`. -/
theorem fill_asking {i n : Nat} {got rem m rest : Bytes} {int : Bool} {s : ReadStream × ρ} (hm : m.length + 16 < 2 ^ 32) (hn : got.length + rem.length < n) (h : Asking S A l i rem m rest s) :
    (∃ s', fill (encryptedR R A) int n got s = .pending true (if int then got else got ++ rem) s' ∧ Asking S A l i [] m rest s' ∧ size R s'.2 < size R s.2) ∨
    (n ≤ got.length + rem.length + m.length ∧ ∃ r', fill (encryptedR R A) int n got s =
      .done (got ++ (rem ++ m).take (n - got.length)) ({ dec := decAt l (i + 1), remaining := (rem ++ m).drop (n - got.length) }, r') ∧ S.idle (i + 1) r' rest ∧ size R r' ≤ size R s.2) ∨
    (got.length + rem.length + m.length < n ∧ ∃ g s', fill (encryptedR R A) int n got s = .pending false g s') := by
  have hp := asked (want := n - got.length) hm (by omega) h
  unfold Layers.fill
  rw [if_neg (by omega), show (encryptedR R A).pollRead s (n - got.length) = pollRead R A s (n - got.length) from rfl]
  generalize pollRead R A s (n - got.length) = x at hp
  cases hp with
  | @pending s' g1 g2 => exact .inl ⟨s', rfl, g1, g2⟩
  | @ready r' g1 g2 g3 =>
    refine .inr (.inl ⟨by omega, r', ?_, g2, g3⟩)
    have hl : ((rem ++ m).take (n - got.length)).length = n - got.length := by rw [List.length_take, List.length_append]; omega
    cases hx : (rem ++ m).take (n - got.length) with
    | nil => rw [hx] at hl; simp at hl; omega
    | cons b bs =>
      dsimp only
      unfold Layers.fill
      rw [if_pos (by rw [List.length_append, ← hx, hl]; omega)]
  | lost g1 => exact .inr (.inr ⟨by omega, _, _, rfl⟩)

/-- A poll of the layer above: it is pending, and woken only if nothing has changed. -/
theorem torn_poll {p q rest : Bytes} {want : Nat} {s : ReadStream × ReadStream × ρ} (h0 : 0 < want) (hp : p.length + 16 < 2 ^ 32) (hq : q.length + 16 < 2 ^ 32) (hok : S.ok (q.length + 20))
    (ht : p.length < 4 ∨ p.length + q.length < 4 + beVal (p.take 4)) (h : Torn S A l p q rest s) :
    ∃ b s', pollRead (encryptedR R A) A s want = (.pending b, [], s') ∧ (b = true → Torn S A l p q rest s' ∧ size R s'.2.2 < size R s.2.2) := by
  obtain ⟨⟨dec, rem, fut⟩, t⟩ := s
  have fut_ : ∀ {acc : Bytes}, (fut = none ∧ acc = []) ∨ fut = some (.reading acc) → rem = [] → ∀ {b acc' t'}, pollPackage (encryptedR R A) acc t = .pending b acc' t' →
      pollRead (encryptedR R A) A ({ dec := dec, remaining := rem, fut := fut }, t) want = (.pending b, [], { dec := dec, fut := some (.reading acc') }, t') := by
    intro acc hf hr b acc' t' hpk
    subst hr
    have : pollRead (encryptedR R A) A ({ dec := dec, fut := fut }, t) want = pollFutRead (encryptedR R A) A { dec := dec, fut := some (.reading acc) } t want := by
      rcases hf with ⟨rfl, rfl⟩ | rfl
      · simp [pollRead, h0]
      · simp [pollRead]
    rw [this]
    unfold pollFutRead
    dsimp only
    rw [hpk]
  rcases h with ⟨h1, h2, h3⟩ | ⟨h1, h2, h3, h4⟩
  · dsimp only at h1 h2 h3
    have hf : (fut = none ∧ ([] : Bytes) = []) ∨ fut = some (.reading []) := by
      rcases h2 with h2 | h2
      · exact .inl ⟨h2, rfl⟩
      · exact .inr h2
    rcases fill_asking (n := 4) (got := []) (int := true) hp (by simp) h3 with ⟨t', g1, g2, g3⟩ | ⟨g1, r', g2, g3, g4⟩ | ⟨g1, g, t', g2⟩
    · have hpk : pollPackage (encryptedR R A) [] t = .pending true [] t' := by
        unfold pollPackage
        rw [if_pos (by simp), g1]
        rfl
      exact ⟨_, _, fut_ hf h1 hpk, fun _ => ⟨.inl ⟨rfl, .inr rfl, g2⟩, g3⟩⟩
    · simp only [List.length_nil, Nat.add_zero, Nat.zero_add, List.nil_append, Nat.sub_zero] at g1 g2
      have hlt : (p.take 4).length = 4 := by rw [List.length_take]; omega
      have hbody : p.length + q.length < 4 + beVal (p.take 4) := by
        rcases ht with ht | ht
        · omega
        · exact ht
      have hat := S.start g3 (by rw [length_pkg A l 1 hq]; exact hok)
      have hb := fill_asking (A := A) (l := l) (i := 1) (n := 4 + beVal (p.take 4)) (got := p.take 4) (rem := p.drop 4) (m := q) (rest := rest) (int := false)
        (s := ({ dec := decAt l (0 + 1), remaining := p.drop 4 }, r')) hq (by rw [hlt, List.length_drop]; omega) ⟨[], _, rfl, hat, .inl ⟨rfl, rfl⟩⟩
      have hpk : pollPackage (encryptedR R A) [] t = fill (encryptedR R A) false (4 + beVal (p.take 4)) (p.take 4) ({ dec := decAt l (0 + 1), remaining := p.drop 4 }, r') := by
        unfold pollPackage
        rw [if_pos (by simp), g2]
        dsimp only
        rw [List.take_take]
        rfl
      rcases hb with ⟨t', k1, k2, k3⟩ | ⟨k1, -⟩ | ⟨k1, g, t', k2⟩
      · rw [← hpk] at k1
        simp only [Bool.false_eq_true, if_false, List.take_append_drop] at k1
        refine ⟨_, _, fut_ hf h1 k1, fun _ => ⟨.inr ⟨rfl, rfl, g1, k2⟩, ?_⟩⟩
        dsimp only at k3 g4 ⊢
        omega
      · rw [hlt, List.length_drop] at k1
        omega
      · rw [← hpk] at k2
        exact ⟨_, _, fut_ hf h1 k2, by simp⟩
    · have hpk : pollPackage (encryptedR R A) [] t = .pending false g t' := by
        unfold pollPackage
        rw [if_pos (by simp), g2]
      exact ⟨_, _, fut_ hf h1 hpk, by simp⟩
  · dsimp only at h1 h2 h4
    have hbody : p.length + q.length < 4 + beVal (p.take 4) := by
      rcases ht with ht | ht
      · omega
      · exact ht
    have hpk : pollPackage (encryptedR R A) p t = fill (encryptedR R A) false (4 + beVal (p.take 4)) p t := by
      unfold pollPackage
      rw [if_neg (by omega)]
    rcases fill_asking (n := 4 + beVal (p.take 4)) (got := p) (int := false) hq (by simp; omega) h4 with ⟨t', g1, g2, g3⟩ | ⟨g1, r', g2, g3, g4⟩ | ⟨g1, g, t', g2⟩
    · simp only [Bool.false_eq_true, if_false, List.append_nil] at g1
      rw [← hpk] at g1
      exact ⟨_, _, fut_ (.inr h2) h1 g1, fun _ => ⟨.inr ⟨rfl, rfl, h3, g2⟩, g3⟩⟩
    · simp only [List.length_nil] at g1
      omega
    · rw [← hpk] at g2
      exact ⟨_, _, fut_ (.inr h2) h1 g2, by simp⟩

/-- So it never returns. -/
theorem torn_drive {p q rest : Bytes} {int : Bool} {n : Nat} (h0 : 0 < n) (hp : p.length + 16 < 2 ^ 32) (hq : q.length + 16 < 2 ^ 32) (hok : S.ok (q.length + 20))
    (ht : p.length < 4 ∨ p.length + q.length < 4 + beVal (p.take 4)) : ∀ (fuel : Nat) {s : ReadStream × ReadStream × ρ}, Torn S A l p q rest s →
    Layers.drive (encryptedR (encryptedR R A) A) int n fuel [] s = .hang := by
  intro fuel
  induction fuel with
  | zero => intro s _; rfl
  | succ fuel ih =>
    intro s h
    obtain ⟨b, s', h1, h2⟩ := torn_poll (want := n) h0 hp hq hok ht h
    have hf : Layers.fill (encryptedR (encryptedR R A) A) int n [] s = .pending b [] s' := by
      unfold Layers.fill
      rw [if_neg (by simp; omega), show (encryptedR (encryptedR R A) A).pollRead s (n - ([] : Bytes).length) = pollRead (encryptedR R A) A s n from rfl, h1]
      cases int <;> rfl
    unfold Layers.drive
    rw [hf]
    cases b with
    | false => rfl
    | true => exact ih (h2 rfl).1

end

end Bromine.Layers
