import Verif.Model.CryptWire
import Verif.Spec.Crypt
import Verif.Lemmas.Crypt
import Verif.Lemmas.Event
/-
Invariant of the encrypted write half shared by emitters.
-/
namespace Bromine.CryptWire
open Bromine CryptIO Spec

/-- The transport reports an error or takes nothing. -/
def Bad (as : List IoAns) : Prop := (∃ er, IoAns.fail er ∈ as) ∨ IoAns.ready 0 ∈ as

theorem Bad.mono {as as' : List IoAns} (h : Bad as) (hs : ∀ a ∈ as, a ∈ as') : Bad as' := by
  rcases h with ⟨er, h⟩ | h
  · exact Or.inl ⟨er, hs _ h⟩
  · exact Or.inr (hs _ h)

theorem pollWriteAll_spec {rem : Bytes} {as : List IoAns} {r : Option (Except IoErr Unit)} {w rem' : Bytes} {as' : List IoAns}
    (h : pollWriteAll rem as = (r, w, rem', as')) : rem = w ++ rem' ∧ (r = some (.ok ()) → rem' = []) ∧
      (∀ er, r = some (.error er) → Bad as) ∧ ∀ a ∈ as', a ∈ as := by
  fun_induction pollWriteAll rem as generalizing r w rem' as' with
  | case1 => cases h; simp
  | case2 => cases h; simp
  | case3 => cases h; simp +contextual
  | case4 b bs er as => cases h; exact ⟨by simp, by simp, fun _ _ => Or.inl ⟨er, by simp⟩, by simp +contextual⟩
  | case5 => cases h; exact ⟨by simp, by simp, fun _ _ => Or.inr (by simp), by simp +contextual⟩
  | case6 b bs n as r0 w0 rem0 as0 heq ih =>
    cases h
    obtain ⟨h1, h2, h3, h4⟩ := ih heq
    refine ⟨?_, h2, fun er h => (h3 er h).mono (by simp +contextual), fun a ha => by simp [h4 a ha]⟩
    rw [List.append_assoc, ← h1, List.take_append_drop]

/-- Package number `i`, carrying `e`. -/
def pk (A : Aead) (key : Bytes) (i : Nat) (e : Event) : Bytes :=
  packageBytes ((A.enc key (nonceFromNumber (UInt64.ofNat i)) (Wire.frame e)).getD [])

/-- The packages of `es`, numbered from `i`. -/
def pkgs (A : Aead) (key : Bytes) : Nat → List Event → Bytes
  | _, [] => []
  | i, e :: es => pk A key i e ++ pkgs A key (i + 1) es

theorem pkgs_snoc (A : Aead) (key : Bytes) (i : Nat) (es : List Event) (e : Event) :
    pkgs A key i (es ++ [e]) = pkgs A key i es ++ pk A key (i + es.length) e := by
  induction es generalizing i with
  | nil => simp [pkgs]
  | cons a es ih => simp [pkgs, ih, Nat.add_assoc, Nat.add_comm 1]

theorem ofNat_succ (n : Nat) : UInt64.ofNat n + 1 = UInt64.ofNat (n + 1) := by
  simp

/-- The rest of the package that a flush is writing. -/
def remOf : FlushFut → Bytes
  | .writing rem => rem
  | .flushing => []

/-- The encryptor has done `n` encryptions under `key`. -/
def At (key : Bytes) (n : Nat) (x : Encryptor) : Prop := x.key = key ∧ x.count = UInt64.ofNat n

/-- After the packages of `lg`, part of the package of `e` is on the wire, `rem` is left. -/
def Cur (A : Aead) (key : Bytes) (lg : List Event) (e : Event) (wire rem : Bytes) : Prop :=
  ∃ w, wire = pkgs A key 0 lg ++ w ∧ w ++ rem = pk A key lg.length e

theorem Cur.adv {A : Aead} {key : Bytes} {lg : List Event} {e : Event} {wire w rem : Bytes} (h : Cur A key lg e wire (w ++ rem)) :
    Cur A key lg e (wire ++ w) rem := by
  obtain ⟨v, h1, h2⟩ := h
  exact ⟨v ++ w, by rw [h1]; simp, by rw [← h2]; simp⟩

theorem Cur.all {A : Aead} {key : Bytes} {lg : List Event} {e : Event} {wire : Bytes} (h : Cur A key lg e wire []) :
    wire = pkgs A key 0 (lg ++ [e]) := by
  obtain ⟨v, h1, h2⟩ := h
  rw [List.append_nil] at h2
  rw [pkgs_snoc, Nat.zero_add, ← h2, h1]

theorem Cur.start {A : Aead} {key : Bytes} {lg : List Event} {e : Event} {wire : Bytes} (h : wire = pkgs A key 0 lg) :
    Cur A key lg e wire (pk A key lg.length e) := ⟨[], by simp [h], by simp⟩

/-- The phases of the emit of `e` that holds the lock, after the events `lg` have been sent. -/
def Phase (A : Aead) (key : Bytes) (lg : List Event) (e : Event) (ws : WriteStream) (wire : Bytes) (st : Option Stage) : Prop :=
  (st = some (.writing e) ∧ ∃ x, ws = { enc := x } ∧ At key lg.length x ∧ wire = pkgs A key 0 lg) ∨
  (st = some (.writing e) ∧ ∃ x rem, ws = { enc := x, inner := false, cipher := false, futWrite := some rem } ∧ At key (lg.length + 1) x ∧
    Cur A key lg e wire rem) ∨
  (st = some (.flushing e) ∧ ∃ x f, ws = { enc := x, inner := false, cipher := false, futFlush := some f } ∧ At key (lg.length + 1) x ∧
    Cur A key lg e wire (remOf f))

/-- Nobody writes: the events `es` have been sent. -/
def Rest (A : Aead) (key : Bytes) (es : List Event) (ws : WriteStream) (wire : Bytes) : Prop :=
  ∃ x, ws = { enc := x } ∧ At key es.length x ∧ wire = pkgs A key 0 es

/-- Small enough for one package. -/
def Sized (e : Event) : Prop := 0 < (Wire.frame e).length ∧ (Wire.frame e).length + 16 < 2 ^ 32

theorem enc_sized {A : Aead} {e : Event} (h : Sized e) (key : Bytes) (n : Nat) :
    ∃ c, A.enc key (nonceFromNumber (UInt64.ofNat n)) (Wire.frame e) = some c := by
  have := A.total key (nonceFromNumber (UInt64.ofNat n)) (Wire.frame e) (by have := h.2; omega)
  exact Option.isSome_iff_exists.1 this

theorem encrypt_at {A : Aead} {key : Bytes} {n : Nat} {x : Encryptor} (hx : At key n x) {e : Event} (h : Sized e) :
    ∃ c x', x.encrypt A (Wire.frame e) = (.ok c, x') ∧ At key (n + 1) x' ∧ packageBytes c = pk A key n e := by
  obtain ⟨c, hc⟩ := enc_sized (A := A) h key n
  obtain ⟨h1, h2⟩ := hx
  refine ⟨c, (x.encrypt A (Wire.frame e)).2, ?_, ?_, ?_⟩
  · simp only [Encryptor.encrypt, h1, h2, hc]
  · constructor
    · simp only [Encryptor.encrypt, h1, h2, hc]
    · simp only [Encryptor.encrypt, h1, h2, hc, ofNat_succ]
  · simp only [pk, hc, Option.getD_some]

/-- The outcome of a poll: it goes on, it is done, or it has failed. -/
def Good (A : Aead) (key : Bytes) (s : State) (t : Nat) (lg : List Event) (e : Event) (as : List IoAns) (s' : State) : Prop :=
  s'.log = s.log ∧ (∀ u, u ≠ t → s'.tasks u = s.tasks u) ∧
  ((s'.lock = s.lock ∧ s'.broken = s.broken ∧ Phase A key lg e s'.ws s'.wire (s'.tasks t)) ∨
   (s'.lock = none ∧ s'.broken = s.broken ∧ s'.tasks t = some (.done e) ∧ Rest A key (lg ++ [e]) s'.ws s'.wire) ∨
   (s'.lock = none ∧ s'.broken = true ∧ s'.tasks t = some (.gone e) ∧ Bad as))

theorem Good.mono {A : Aead} {key : Bytes} {s : State} {t : Nat} {lg : List Event} {e : Event} {as as' : List IoAns} {s' : State}
    (h : Good A key s t lg e as s') (hs : ∀ a ∈ as, a ∈ as') : Good A key s t lg e as' s' := by
  obtain ⟨h1, h2, h3⟩ := h
  refine ⟨h1, h2, ?_⟩
  rcases h3 with h3 | h3 | ⟨h3, h4, h5, h6⟩
  · exact Or.inl h3
  · exact Or.inr (Or.inl h3)
  · exact Or.inr (Or.inr ⟨h3, h4, h5, h6.mono hs⟩)

theorem pollFutFlush_good {A : Aead} {key : Bytes} {lg : List Event} {e : Event} {x : Encryptor} (hx : At key (lg.length + 1) x)
    {wire : Bytes} {f0 : Option FlushFut} (hw : Cur A key lg e wire []) (as : List IoAns) :
    let r := pollFutFlush { enc := x, inner := false, cipher := false, futFlush := f0 } as
    r.wire = [] ∧
    ((∃ b, r.poll = .pending b ∧ Phase A key lg e r.ws wire (some (.flushing e))) ∨
     (r.poll = .ready (.ok ()) ∧ Rest A key (lg ++ [e]) r.ws wire) ∨ ((∃ er, r.poll = .ready (.error er)) ∧ Bad as)) := by
  cases as with
  | nil => exact ⟨rfl, Or.inl ⟨true, rfl, Or.inr (Or.inr ⟨rfl, x, _, rfl, hx, by simpa [remOf] using hw⟩)⟩⟩
  | cons a as =>
    cases a with
    | pending => exact ⟨rfl, Or.inl ⟨true, rfl, Or.inr (Or.inr ⟨rfl, x, _, rfl, hx, by simpa [remOf] using hw⟩)⟩⟩
    | fail er => exact ⟨rfl, Or.inr (Or.inr ⟨⟨er, rfl⟩, Or.inl ⟨er, by simp⟩⟩)⟩
    | ready n => exact ⟨rfl, Or.inr (Or.inl ⟨rfl, x, rfl, by simpa using hx, hw.all⟩)⟩

theorem pollFlushWrite_good {A : Aead} {key : Bytes} {lg : List Event} {e : Event} {x : Encryptor} (hx : At key (lg.length + 1) x)
    {wire rem : Bytes} {f0 : Option FlushFut} (hw : Cur A key lg e wire rem) (as : List IoAns) :
    let r := pollFlushWrite { enc := x, inner := false, cipher := false, futFlush := f0 } rem as
    ((∃ b, r.poll = .pending b ∧ Phase A key lg e r.ws (wire ++ r.wire) (some (.flushing e))) ∨
     (r.poll = .ready (.ok ()) ∧ Rest A key (lg ++ [e]) r.ws (wire ++ r.wire)) ∨ ((∃ er, r.poll = .ready (.error er)) ∧ Bad as)) := by
  simp only [pollFlushWrite]
  split
  · rename_i w r' as' heq
    obtain ⟨h1, h2, -, h4⟩ := pollWriteAll_spec heq
    have h2 := h2 rfl
    subst h2
    rw [h1] at hw
    have hw := hw.adv
    obtain ⟨-, h3⟩ := pollFutFlush_good (f0 := f0) hx hw as'
    rcases h3 with h3 | h3 | h3
    · exact Or.inl h3
    · exact Or.inr (Or.inl h3)
    · exact Or.inr (Or.inr ⟨h3.1, h3.2.mono h4⟩)
  · rename_i heq
    exact Or.inr (Or.inr ⟨⟨_, rfl⟩, (pollWriteAll_spec heq).2.2.1 _ rfl⟩)
  · rename_i w r' as' heq
    obtain ⟨h1, h2⟩ := pollWriteAll_spec heq
    rw [h1] at hw
    have hw := hw.adv
    exact Or.inl ⟨true, rfl, Or.inr (Or.inr ⟨rfl, x, _, rfl, hx, by simpa [remOf] using hw⟩)⟩

theorem stage_of_results {A : Aead} {key : Bytes} {s : State} {t : Nat} {lg : List Event} {e : Event} {ws : WriteStream} {wire : Bytes}
    {as : List IoAns}
    (h : let r := ws.pollFlush A as
      ((∃ b, r.poll = .pending b ∧ Phase A key lg e r.ws (wire ++ r.wire) (some (.flushing e))) ∨
       (r.poll = .ready (.ok ()) ∧ Rest A key (lg ++ [e]) r.ws (wire ++ r.wire)) ∨ ((∃ er, r.poll = .ready (.error er)) ∧ Bad as))) :
    Good A key s t lg e as (pollFlushStage A s t e ws wire as) := by
  simp only at h
  simp only [pollFlushStage]
  rcases h with ⟨b, h1, h2⟩ | ⟨h1, h2⟩ | ⟨⟨er, h1⟩, hbad⟩
  · simp only [h1]
    refine ⟨rfl, fun u hu => by simp [Wire.set, hu], Or.inl ⟨rfl, rfl, ?_⟩⟩
    simpa [Wire.set] using h2
  · simp only [h1]
    exact ⟨rfl, fun u hu => by simp [Wire.set, hu], Or.inr (Or.inl ⟨rfl, rfl, by simp [Wire.set], h2⟩)⟩
  · simp only [h1]
    exact ⟨rfl, fun u hu => by simp [Wire.set, hu], Or.inr (Or.inr ⟨rfl, rfl, by simp [Wire.set], hbad⟩)⟩

/-- A flush that has begun is polled again. -/
theorem flush_again {A : Aead} {key : Bytes} {s : State} {t : Nat} {lg : List Event} {e : Event} {x : Encryptor} {f : FlushFut}
    {wire : Bytes} (hx : At key (lg.length + 1) x) (hw : Cur A key lg e wire (remOf f)) (as : List IoAns) :
    Good A key s t lg e as (pollFlushStage A s t e { enc := x, inner := false, cipher := false, futFlush := some f } wire as) := by
  apply stage_of_results
  simp only [WriteStream.pollFlush]
  cases f with
  | writing rem => exact pollFlushWrite_good hx hw as
  | flushing =>
    have h := pollFutFlush_good (A := A) (f0 := some .flushing) hx (by simpa [remOf] using hw) as
    simp only at h ⊢
    rw [h.1, List.append_nil]
    exact h.2

/-- A flush after the package has been written by `write_all`. -/
theorem flush_empty {A : Aead} {key : Bytes} {s : State} {t : Nat} {lg : List Event} {e : Event} {x : Encryptor}
    {wire : Bytes} (hx : At key (lg.length + 1) x) (hw : Cur A key lg e wire []) (as : List IoAns) :
    Good A key s t lg e as (pollFlushStage A s t e { enc := x } wire as) := by
  apply stage_of_results
  have h := pollFutFlush_good (A := A) (f0 := none) hx hw as
  simp only [WriteStream.pollFlush, List.take_nil, List.drop_nil, List.length_nil, Nat.lt_irrefl, Bool.and_self, if_true, if_false] at h ⊢
  rw [h.1, List.append_nil]
  exact h.2

/-- A flush after the frame has only been buffered by `write_all`. -/
theorem flush_buffered {A : Aead} {key : Bytes} {s : State} {t : Nat} {lg : List Event} {e : Event} {x : Encryptor}
    {wire : Bytes} (hx : At key lg.length x) (hs : Sized e) (hw : wire = pkgs A key 0 lg) (as : List IoAns) :
    Good A key s t lg e as (pollFlushStage A s t e { enc := x, buffer := Wire.frame e } wire as) := by
  apply stage_of_results
  have ht : (Wire.frame e).take u32Max = Wire.frame e := List.take_of_length_le (by have := hs.2; unfold u32Max; omega)
  have hd : (Wire.frame e).drop u32Max = [] := List.drop_of_length_le (by have := hs.2; unfold u32Max; omega)
  obtain ⟨c, x', h1, h2, h3⟩ := encrypt_at (A := A) hx hs
  simp only [WriteStream.pollFlush, ht, hd, Bool.and_self, if_true, hs.1, h1]
  exact pollFlushWrite_good h2 (by rw [h3]; exact Cur.start hw) as

theorem pollFutWrite_good {A : Aead} {key : Bytes} {s : State} {t : Nat} {lg : List Event} {e : Event} {x : Encryptor} {rem : Bytes}
    {f0 : Option Bytes} (hx : At key (lg.length + 1) x) (hw : Cur A key lg e s.wire rem) (as : List IoAns)
    (hr : s.ws.pollWrite A (Wire.frame e) as
      = pollFutWrite { enc := x, inner := false, cipher := false, futWrite := f0 } rem (Wire.frame e).length as) :
    Good A key s t lg e as (pollWriteStage A s t e as) := by
  simp only [pollWriteStage, hr, pollFutWrite]
  match hq : pollWriteAll rem as with
  | (some (.ok ()), w, r', as') =>
    simp only [Except.map]
    obtain ⟨h1, h2, -, h4⟩ := pollWriteAll_spec hq
    have h2 := h2 rfl
    subst h2
    rw [h1] at hw
    have hw := hw.adv
    exact (flush_empty hx hw as').mono h4
  | (some (.error er), w, r', as') =>
    simp only [Except.map]
    exact ⟨rfl, fun u hu => by simp [Wire.set, hu], Or.inr (Or.inr ⟨rfl, rfl, by simp [Wire.set], (pollWriteAll_spec hq).2.2.1 _ rfl⟩)⟩
  | (none, w, r', as') =>
    simp only
    obtain ⟨h1, h2⟩ := pollWriteAll_spec hq
    refine ⟨rfl, fun u hu => by simp [Wire.set, hu], Or.inl ⟨rfl, rfl, Or.inr (Or.inl ⟨by simp [Wire.set], x, r', rfl, hx, ?_⟩)⟩⟩
    rw [h1] at hw
    exact hw.adv

theorem poll_good {A : Aead} {key : Bytes} {s s' : State} {t : Nat} {lg : List Event} {e : Event} (hs : Sized e)
    (hp : Phase A key lg e s.ws s.wire (s.tasks t)) {as : List IoAns} (h : step A s (.poll t as) = some s') :
    Good A key s t lg e as s' := by
  rcases hp with ⟨hst, x, hws, hx, hw⟩ | ⟨hst, x, rem, hws, hx, hw⟩ | ⟨hst, x, f, hws, hx, hw⟩
  · simp only [step, hst, Option.some.injEq] at h
    subst h
    by_cases hb : WRITE_BUF_SIZE ≤ (Wire.frame e).length
    · have ht : (Wire.frame e).take u32Max = Wire.frame e := List.take_of_length_le (by have := hs.2; unfold u32Max; omega)
      have hd : (Wire.frame e).drop u32Max = [] := List.drop_of_length_le (by have := hs.2; unfold u32Max; omega)
      obtain ⟨c, x', h1, h2, h3⟩ := encrypt_at (A := A) hx hs
      refine pollFutWrite_good (x := x') (rem := packageBytes c) (f0 := none) h2 (by rw [h3]; exact Cur.start hw) as ?_
      simp only [WriteStream.pollWrite, hws, List.nil_append, hb, if_true, ht, hd, Bool.and_self, h1]
    · simp only [pollWriteStage, WriteStream.pollWrite, hws, List.nil_append, hb, if_false, List.append_nil]
      exact flush_buffered hx hs hw as
  · simp only [step, hst, Option.some.injEq] at h
    subst h
    refine pollFutWrite_good (x := x) (rem := rem) (f0 := some rem) hx hw as ?_
    simp only [WriteStream.pollWrite, hws]
  · simp only [step, hst, Option.some.injEq] at h
    subst h
    rw [hws]
    exact flush_again hx hw as

/-- An emit that holds the lock. -/
def Holds (st : Option Stage) (e : Event) : Prop := st = some (.writing e) ∨ st = some (.flushing e)

theorem Phase.holds {A : Aead} {key : Bytes} {lg : List Event} {e : Event} {ws : WriteStream} {wire : Bytes} {st : Option Stage}
    (h : Phase A key lg e ws wire st) : Holds st e := by
  rcases h with ⟨h, -⟩ | ⟨h, -⟩ | ⟨h, -⟩ <;> simp [Holds, h]

structure Inv (A : Aead) (key : Bytes) (s : State) : Prop where
  holder : ∀ (u : Nat) (e : Event), Holds (s.tasks u) e → s.lock = some u
  rest : s.broken = false → (∀ x ∈ s.log, Sized x.2) → s.lock = none → Rest A key (s.log.map Prod.snd) s.ws s.wire
  phase : s.broken = false → (∀ x ∈ s.log, Sized x.2) → ∀ (u : Nat), s.lock = some u →
    ∃ lg e, s.log = lg ++ [(u, e)] ∧ Phase A key (lg.map Prod.snd) e s.ws s.wire (s.tasks u)
  logged : ∀ (u : Nat) (e : Event), s.tasks u = some (.done e) ∨ Holds (s.tasks u) e → (u, e) ∈ s.log
  nodup : (s.log.map Prod.fst).Nodup
  known : ∀ x ∈ s.log, s.tasks x.1 = some (.writing x.2) ∨ s.tasks x.1 = some (.flushing x.2) ∨ s.tasks x.1 = some (.done x.2) ∨
    s.tasks x.1 = some (.gone x.2)
  last : ∀ (u : Nat) (e : Event), Holds (s.tasks u) e → ∃ lg, s.log = lg ++ [(u, e)]

theorem inv_init (A : Aead) (key : Bytes) (log : List Encryption := []) : Inv A key (init key log) where
  holder := by simp [init, Holds]
  rest := by
    intro _ _ _
    exact ⟨_, rfl, ⟨rfl, rfl⟩, rfl⟩
  phase := by simp [init]
  logged := by simp [init, Holds]
  nodup := by simp [init]
  known := by simp [init]
  last := by simp [init, Holds]

/-- What a poll of an emit can do, whatever the state. -/
theorem poll_shape {A : Aead} {s s' : State} {t : Nat} {as : List IoAns} (h : step A s (.poll t as) = some s') :
    ∃ e, Holds (s.tasks t) e ∧ s'.log = s.log ∧ (∀ u, u ≠ t → s'.tasks u = s.tasks u) ∧
      ((s'.lock = s.lock ∧ Holds (s'.tasks t) e ∧ s'.broken = s.broken) ∨
       (s'.lock = none ∧ s'.tasks t = some (.done e) ∧ s'.broken = s.broken) ∨
       (s'.lock = none ∧ s'.tasks t = some (.gone e) ∧ s'.broken = true)) := by
  have hfl : ∀ (e : Event) ws wire as, (pollFlushStage A s t e ws wire as).log = s.log ∧
      (∀ u, u ≠ t → (pollFlushStage A s t e ws wire as).tasks u = s.tasks u) ∧
      (((pollFlushStage A s t e ws wire as).lock = s.lock ∧ Holds ((pollFlushStage A s t e ws wire as).tasks t) e ∧
          (pollFlushStage A s t e ws wire as).broken = s.broken) ∨
       ((pollFlushStage A s t e ws wire as).lock = none ∧ (pollFlushStage A s t e ws wire as).tasks t = some (.done e) ∧
          (pollFlushStage A s t e ws wire as).broken = s.broken) ∨
       ((pollFlushStage A s t e ws wire as).lock = none ∧ (pollFlushStage A s t e ws wire as).tasks t = some (.gone e) ∧
          (pollFlushStage A s t e ws wire as).broken = true)) := by
    intro e ws wire as
    simp only [pollFlushStage]
    split
    · exact ⟨rfl, fun u hu => by simp [Wire.set, hu], Or.inl ⟨rfl, by simp [Wire.set, Holds], rfl⟩⟩
    · exact ⟨rfl, fun u hu => by simp [Wire.set, hu], Or.inr (Or.inl ⟨rfl, by simp [Wire.set], rfl⟩)⟩
    · exact ⟨rfl, fun u hu => by simp [Wire.set, hu], Or.inr (Or.inr ⟨rfl, by simp [Wire.set], rfl⟩)⟩
  simp only [step] at h
  split at h
  · rename_i e ht
    injection h with h
    subst h
    refine ⟨e, Or.inl ht, ?_⟩
    simp only [pollWriteStage]
    split
    · exact ⟨rfl, fun u hu => by simp [Wire.set, hu], Or.inl ⟨rfl, by simp [Wire.set, Holds], rfl⟩⟩
    · exact hfl _ _ _ _
    · exact ⟨rfl, fun u hu => by simp [Wire.set, hu], Or.inr (Or.inr ⟨rfl, by simp [Wire.set], rfl⟩)⟩
  · rename_i e ht
    injection h with h
    subst h
    exact ⟨e, Or.inr ht, hfl _ _ _ _⟩
  · cases h

theorem Holds.unique {st : Option Stage} {e e' : Event} (h : Holds st e) (h' : Holds st e') : e = e' := by
  rcases h with h | h <;> rcases h' with h' | h' <;> simp_all

theorem Holds.not_other {st : Option Stage} {e : Event} (h : Holds st e) : st ≠ none ∧ (∀ e', st ≠ some (.waiting e')) ∧
    (∀ e', st ≠ some (.done e')) ∧ (∀ e', st ≠ some (.gone e')) := by
  rcases h with h | h <;> simp [h]

theorem inv_step {A : Aead} {key : Bytes} {s s' : State} {op : Op} (h : Inv A key s) (hs : step A s op = some s') : Inv A key s' := by
  cases op with
  | start t e =>
    simp only [step] at hs
    split at hs
    · rename_i ht
      injection hs with hs
      subst hs
      have hne : ∀ x ∈ s.log, x.1 ≠ t := by
        intro x hx hxt
        have := h.known x hx
        rw [hxt, ht] at this
        simp at this
      have hnl : s.lock = some t → ¬ s.broken = false ∨ ¬ (∀ x ∈ s.log, Sized x.2) := by
        intro hl
        rcases Classical.em (s.broken = false) with hb | hb
        · rcases Classical.em (∀ x ∈ s.log, Sized x.2) with hz | hz
          · obtain ⟨lg, e0, h1, h2⟩ := h.phase hb hz t hl
            exact absurd ht h2.holds.not_other.1
          · exact Or.inr hz
        · exact Or.inl hb
      refine ⟨?_, h.rest, ?_, ?_, h.nodup, ?_, ?_⟩
      · intro u e' hu
        by_cases hut : u = t
        · subst hut; simp [Wire.set, Holds] at hu
        · exact h.holder u e' (by simpa [Wire.set, hut] using hu)
      · intro hb hz u hl
        have hut : u ≠ t := by
          rintro rfl
          rcases hnl hl with hc | hc
          · exact hc hb
          · exact hc hz
        simpa [Wire.set, hut] using h.phase hb hz u hl
      · intro u e' hu
        by_cases hut : u = t
        · subst hut; simp [Wire.set, Holds] at hu
        · exact h.logged u e' (by simpa [Wire.set, hut] using hu)
      · intro x hx
        simpa [Wire.set, hne x hx] using h.known x hx
      · intro u e' hu
        by_cases hut : u = t
        · subst hut; simp [Wire.set, Holds] at hu
        · exact h.last u e' (by simpa [Wire.set, hut] using hu)
    · cases hs
  | lock t =>
    simp only [step] at hs
    split at hs
    · rename_i e ht hl
      injection hs with hs
      subst hs
      have hne : ∀ x ∈ s.log, x.1 ≠ t := by
        intro x hx hxt
        have := h.known x hx
        rw [hxt, ht] at this
        simp at this
      have hno : ∀ u e', ¬ Holds (s.tasks u) e' := by
        intro u e' hu
        have := h.holder u e' hu
        rw [hl] at this
        cases this
      refine ⟨?_, by simp, ?_, ?_, ?_, ?_, ?_⟩
      · intro u e' hu
        by_cases hut : u = t
        · subst hut; rfl
        · exact absurd (by simpa [Wire.set, hut] using hu) (hno u e')
      · intro hb hz u hlu
        simp only [Option.some.injEq] at hlu
        subst hlu
        refine ⟨s.log, e, rfl, Or.inl ⟨by simp [Wire.set], ?_⟩⟩
        exact h.rest hb (fun x hx => hz x (by simp [hx])) hl
      · intro u e' hu
        by_cases hut : u = t
        · subst hut
          simp [Wire.set, Holds] at hu
          subst hu
          simp
        · have := h.logged u e' (by simpa [Wire.set, hut] using hu)
          simp [this]
      · rw [List.map_append, List.nodup_append]
        refine ⟨h.nodup, by simp, ?_⟩
        intro a ha b hb
        simp only [List.map_cons, List.map_nil, List.mem_singleton] at hb
        subst hb
        obtain ⟨x, hx, rfl⟩ := List.mem_map.1 ha
        exact hne x hx
      · intro x hx
        rcases List.mem_append.1 hx with hx | hx
        · simpa [Wire.set, hne x hx] using h.known x hx
        · simp only [List.mem_singleton] at hx
          subst hx
          simp [Wire.set]
      · intro u e' hu
        by_cases hut : u = t
        · subst hut
          simp [Wire.set, Holds] at hu
          subst hu
          exact ⟨s.log, rfl⟩
        · exact absurd (by simpa [Wire.set, hut] using hu) (hno u e')
    · cases hs
  | poll t as =>
    obtain ⟨e, hh, hlog, hoth, hcase⟩ := poll_shape hs
    have hlk := h.holder t e hh
    obtain ⟨lg, hlg⟩ := h.last t e hh
    have hgood : s.broken = false → (∀ x ∈ s.log, Sized x.2) → Good A key s t (lg.map Prod.snd) e as s' := by
      intro hb hz
      obtain ⟨lg', e', h1, h2⟩ := h.phase hb hz t hlk
      rw [hlg] at h1
      have h3 := List.append_inj' h1 (by simp)
      obtain ⟨rfl, h4⟩ := h3
      simp only [List.cons.injEq, Prod.mk.injEq, true_and, and_true] at h4
      subst h4
      exact poll_good (hz (t, e) (by rw [hlg]; simp)) h2 hs
    have hut' : ∀ u e', Holds (s.tasks u) e' → u = t := by
      intro u e' hu
      have := h.holder u e' hu
      rw [hlk] at this
      exact (Option.some.inj this).symm
    have hholds' : ∀ u e', Holds (s'.tasks u) e' → u = t ∧ e' = e ∧ s'.lock = s.lock := by
      intro u e' hu
      by_cases hut : u = t
      · subst hut
        rcases hcase with ⟨h1, h2, h3⟩ | ⟨h1, h2, h3⟩ | ⟨h1, h2, h3⟩
        · exact ⟨rfl, hu.unique h2, h1⟩
        · exact absurd h2 (hu.not_other.2.2.1 e)
        · exact absurd h2 (hu.not_other.2.2.2 e)
      · rw [hoth u hut] at hu
        exact absurd (hut' u e' hu) hut
    refine ⟨?_, ?_, ?_, ?_, by rw [hlog]; exact h.nodup, ?_, ?_⟩
    · intro u e' hu
      obtain ⟨rfl, -, h1⟩ := hholds' u e' hu
      rw [h1, hlk]
    · intro hb hz hl
      have hb0 : s.broken = false := by
        rcases hcase with ⟨_, _, h3⟩ | ⟨_, _, h3⟩ | ⟨_, _, h3⟩
        · rw [← h3]; exact hb
        · rw [← h3]; exact hb
        · rw [hb] at h3; cases h3
      rw [hlog] at hz
      rcases (hgood hb0 hz).2.2 with ⟨g1, _, _⟩ | ⟨_, _, _, g4⟩ | ⟨_, g2, _⟩
      · rw [hl, hlk] at g1; cases g1
      · rw [hlog, hlg]; simpa using g4
      · rw [hb] at g2; cases g2
    · intro hb hz u hl
      have hb0 : s.broken = false := by
        rcases hcase with ⟨_, _, h3⟩ | ⟨_, _, h3⟩ | ⟨_, _, h3⟩
        · rw [← h3]; exact hb
        · rw [← h3]; exact hb
        · rw [hb] at h3; cases h3
      rw [hlog] at hz
      rcases (hgood hb0 hz).2.2 with ⟨g1, _, g3⟩ | ⟨g1, _, _, _⟩ | ⟨_, g2, _⟩
      · rw [hl, hlk] at g1
        injection g1 with g1
        subst g1
        exact ⟨lg, e, by rw [hlog, hlg], g3⟩
      · rw [hl] at g1; cases g1
      · rw [hb] at g2; cases g2
    · intro u e' hu
      rw [hlog]
      by_cases hut : u = t
      · subst hut
        have he' : e' = e := by
          rcases hu with hu | hu
          · rcases hcase with ⟨h1, h2, h3⟩ | ⟨h1, h2, h3⟩ | ⟨h1, h2, h3⟩
            · exact absurd hu (h2.not_other.2.2.1 e')
            · rw [h2] at hu; simp at hu; exact hu.symm
            · rw [h2] at hu; simp at hu
          · exact (hholds' _ e' hu).2.1
        subst he'
        rw [hlg]; simp
      · rw [hoth u hut] at hu
        exact h.logged u e' hu
    · intro x hx
      rw [hlog] at hx
      by_cases hut : x.1 = t
      · have hxe : x.2 = e := by
          rcases h.known x hx with k | k | k | k
          · rw [hut] at k; exact Holds.unique (Or.inl k) hh
          · rw [hut] at k; exact Holds.unique (Or.inr k) hh
          · rw [hut] at k; exact absurd k (hh.not_other.2.2.1 _)
          · rw [hut] at k; exact absurd k (hh.not_other.2.2.2 _)
        rw [hut, hxe]
        rcases hcase with ⟨_, h2, _⟩ | ⟨_, h2, _⟩ | ⟨_, h2, _⟩
        · rcases h2 with h2 | h2
          · exact Or.inl h2
          · exact Or.inr (Or.inl h2)
        · exact Or.inr (Or.inr (Or.inl h2))
        · exact Or.inr (Or.inr (Or.inr h2))
      · rw [hoth _ hut]; exact h.known x hx
    · intro u e' hu
      obtain ⟨rfl, rfl, -⟩ := hholds' u e' hu
      rw [hlog]
      exact ⟨lg, hlg⟩
  | drop t =>
    have hheld : ∀ e, Holds (s.tasks t) e →
        Inv A key { s with tasks := Wire.set s.tasks t (some (.gone e)), lock := none, broken := true } := by
      intro e hh
      have hlk := h.holder t e hh
      have hno : ∀ u e', Holds (s.tasks u) e' → u = t := by
        intro u e' hu
        have := h.holder u e' hu
        rw [hlk] at this
        exact (Option.some.inj this).symm
      refine ⟨?_, by simp, by simp, ?_, h.nodup, ?_, ?_⟩
      · intro u e' hu
        by_cases hut : u = t
        · subst hut; simp [Wire.set, Holds] at hu
        · exact absurd (hno u e' (by simpa [Wire.set, hut] using hu)) hut
      · intro u e' hu
        by_cases hut : u = t
        · subst hut; simp [Wire.set, Holds] at hu
        · exact h.logged u e' (by simpa [Wire.set, hut] using hu)
      · intro x hx
        by_cases hut : x.1 = t
        · have hxe : x.2 = e := by
            rcases h.known x hx with k | k | k | k
            · rw [hut] at k; exact Holds.unique (Or.inl k) hh
            · rw [hut] at k; exact Holds.unique (Or.inr k) hh
            · rw [hut] at k; exact absurd k (hh.not_other.2.2.1 _)
            · rw [hut] at k; exact absurd k (hh.not_other.2.2.2 _)
          simp [Wire.set, hut, hxe]
        · simpa [Wire.set, hut] using h.known x hx
      · intro u e' hu
        by_cases hut : u = t
        · subst hut; simp [Wire.set, Holds] at hu
        · exact absurd (hno u e' (by simpa [Wire.set, hut] using hu)) hut
    simp only [step] at hs
    split at hs
    · rename_i e ht
      injection hs with hs
      subst hs
      have hne : ∀ x ∈ s.log, x.1 ≠ t := by
        intro x hx hxt
        have := h.known x hx
        rw [hxt, ht] at this
        simp at this
      refine ⟨?_, h.rest, ?_, ?_, h.nodup, ?_, ?_⟩
      · intro u e' hu
        by_cases hut : u = t
        · subst hut; simp [Wire.set, Holds] at hu
        · exact h.holder u e' (by simpa [Wire.set, hut] using hu)
      · intro hb hz u hl
        obtain ⟨lg, e', h1, h2⟩ := h.phase hb hz u hl
        have hut : u ≠ t := by
          rintro rfl
          exact h2.holds.not_other.2.1 _ ht
        exact ⟨lg, e', h1, by simpa [Wire.set, hut] using h2⟩
      · intro u e' hu
        by_cases hut : u = t
        · subst hut; simp [Wire.set, Holds] at hu
        · exact h.logged u e' (by simpa [Wire.set, hut] using hu)
      · intro x hx
        simpa [Wire.set, hne x hx] using h.known x hx
      · intro u e' hu
        by_cases hut : u = t
        · subst hut; simp [Wire.set, Holds] at hu
        · exact h.last u e' (by simpa [Wire.set, hut] using hu)
    · rename_i e ht
      injection hs with hs
      subst hs
      exact hheld e (Or.inl ht)
    · rename_i e ht
      injection hs with hs
      subst hs
      exact hheld e (Or.inr ht)
    · cases hs

theorem inv_run {A : Aead} {key : Bytes} {s s' : State} {ops : List Op} (h : Inv A key s) (hr : run A s ops = some s') : Inv A key s' := by
  induction ops generalizing s with
  | nil => cases hr; exact h
  | cons op ops ih =>
    simp only [run, Option.bind_eq_some_iff] at hr
    obtain ⟨s1, h1, h2⟩ := hr
    exact ih (inv_step h h1) h2

end Bromine.CryptWire
