import Verif.Model.Layers
import Verif.Lemmas.CryptBytes
/-
Writing through encrypted layers: what an emit does to the transport below.
-/
namespace Bromine.Layers
open Bromine CryptIO

/-- An answer that lets a write fail. -/
def Bad (as : List IoAns) : Prop := ∃ a ∈ as, a ≠ .pending ∧ ∀ n, a ≠ .ready (n + 1)

/-- An answer lets a write fail with this error: the socket's own, or `WriteZero` if it takes nothing. -/
def Fails (as : List IoAns) (e : IoErr) : Prop := .fail e ∈ as ∨ (e = .writeZero ∧ .ready 0 ∈ as)

theorem Fails.bad {as : List IoAns} {e : IoErr} (h : Fails as e) : Bad as := by
  rcases h with h | ⟨-, h⟩
  · exact ⟨_, h, by simp, by simp⟩
  · exact ⟨_, h, by simp, by simp⟩

/-- The next answer lets a write get on. -/
def HeadReady (as : List IoAns) : Prop := ∃ n l, as = .ready (n + 1) :: l

/-- Of the bytes `r`, all but `r'` have gone to the wire. -/
structure Adv (s s' : Socket) (r r' : Bytes) : Prop where
  wire : ∃ d, r = d ++ r' ∧ s'.wire = s.wire ++ d
  answers : s'.answers <:+ s.answers

theorem Adv.refl (s : Socket) (r : Bytes) : Adv s s r r := ⟨⟨[], by simp, by simp⟩, List.suffix_refl _⟩

theorem Adv.trans {s1 s2 s3 : Socket} {r1 r2 r3 : Bytes} (h : Adv s1 s2 r1 r2) (h' : Adv s2 s3 r2 r3) : Adv s1 s3 r1 r3 := by
  obtain ⟨⟨d, e1, e2⟩, ha⟩ := h
  obtain ⟨⟨d', e3, e4⟩, hb⟩ := h'
  exact ⟨⟨d ++ d', by rw [e1, e3]; simp, by rw [e4, e2]; simp⟩, hb.trans ha⟩

theorem Adv.bad {s1 s2 : Socket} {r1 r2 : Bytes} (h : Adv s1 s2 r1 r2) (hb : Bad s2.answers) : Bad s1.answers := by
  obtain ⟨a, ha, h2⟩ := hb
  exact ⟨a, h.answers.subset ha, h2⟩

theorem Adv.fails {s1 s2 : Socket} {r1 r2 : Bytes} {e : IoErr} (h : Adv s1 s2 r1 r2) (hb : Fails s2.answers e) : Fails s1.answers e :=
  hb.imp (h.answers.subset ·) fun g => ⟨g.1, h.answers.subset g.2⟩

theorem Adv.same {s1 s2 : Socket} {r1 r2 r3 : Bytes} {s3 : Socket} (h : Adv s1 s2 r1 r2) (h' : Adv s2 s3 r2 r3) (hs : r3 = r1) : r2 = r1 := by
  obtain ⟨⟨d, e1, -⟩, -⟩ := h
  obtain ⟨⟨d', e3, -⟩, -⟩ := h'
  have h1 := congrArg List.length e1
  have h2 := congrArg List.length e3
  subst hs
  simp only [List.length_append] at h1 h2
  have : d = [] := List.eq_nil_of_length_eq_zero (by omega)
  subst this
  simpa using e1.symm

/-- The result of a poll: it is done, and then `P`; or it is pending, and then `Q`, and if the socket had an answer for it then bytes have gone to the wire; it fails only if the socket does; also then all that has gone to the wire is a part of `r`. -/
inductive Polled {τ α : Type} (base : τ → Socket) (s : Socket) (r : Bytes) (P : α → τ → Bytes → Prop) (Q : τ → Bytes → Prop) : Poll α × τ → Prop
  | ready {a t' r'} : P a t' r' → Adv s (base t') r r' → Polled base s r P Q (.ready (.ok a), t')
  | error {e t' r'} : Fails s.answers e → Adv s (base t') r r' → Polled base s r P Q (.ready (.error e), t')
  | pending {t' r'} : Q t' r' → Adv s (base t') r r' → (r' ≠ r ∨ ¬ HeadReady s.answers) → Polled base s r P Q (.pending true, t')

/-- A poll after another that was done. -/
theorem Polled.after {τ α : Type} {base : τ → Socket} {s1 s2 : Socket} {r1 r2 : Bytes} {P : α → τ → Bytes → Prop} {Q : τ → Bytes → Prop} {x : Poll α × τ}
    (ha : Adv s1 s2 r1 r2) (hp : r2 ≠ r1 ∨ s2.answers = s1.answers) (h : Polled base s2 r2 P Q x) : Polled base s1 r1 P Q x := by
  cases h with
  | ready h1 h2 => exact .ready h1 (ha.trans h2)
  | error h g => exact .error (ha.fails h) (ha.trans g)
  | pending h1 h2 h3 =>
    refine .pending h1 (ha.trans h2) ?_
    rcases hp with hp | hp
    · exact .inl fun h => hp (ha.same h2 h)
    · rw [hp] at h3
      rcases h3 with h3 | h3
      · by_cases h4 : r2 = r1
        · exact .inl (h4 ▸ h3)
        · exact .inl fun h => h4 (ha.same h2 h)
      · exact .inr h3

/-- The write was done without an answer of the socket, or bytes have gone to the wire. -/
abbrev Free {τ : Type} (base : τ → Socket) (s : Socket) (r : Bytes) (t' : τ) (r' : Bytes) : Prop := r' ≠ r ∨ (base t').answers = s.answers

theorem free_trans {τ τ' : Type} {base : τ → Socket} {base' : τ' → Socket} {s1 : Socket} {r1 r2 r3 : Bytes} {t2 : τ} {t3 : τ'} (h1 : Adv s1 (base t2) r1 r2) (h2 : Free base s1 r1 t2 r2)
    (h3 : Adv (base t2) (base' t3) r2 r3) (h4 : Free base' (base t2) r2 t3 r3) : Free base' s1 r1 t3 r3 := by
  by_cases h : r3 = r1
  · have e := h1.same h3 h
    subst e
    rcases h2 with h2 | h2
    · exact absurd rfl h2
    · rcases h4 with h4 | h4
      · exact absurd h h4
      · exact .inr (h4.trans h2)
  · exact .inl h

/-- What is proved of a transport. `idle i t`: `i` frames have been emitted, and nothing is left of them; `wrap i f`: the bytes for frame `f`, number `i`, on the wire of the socket; `ok n`: frames of `n` bytes can be
sent; `writing i f rem t r`: `write_all` of frame `f`, number `i`, has `rem` left to write, and `r` is what is not on the wire; `flushing i f t r`: the same for `flush`. -/
structure Sends {τ : Type} (T : WriteT τ Socket) where
  idle : Nat → τ → Prop
  wrap : Nat → Bytes → Bytes
  ok : Nat → Prop
  writing : Nat → Bytes → Bytes → τ → Bytes → Prop
  flushing : Nat → Bytes → τ → Bytes → Prop
  start : ∀ {i t f}, idle i t → ok f.length → writing i f f t (wrap i f)
  written : ∀ {i f t r}, writing i f [] t r → flushing i f t r
  write : ∀ {i f rem t r}, writing i f rem t r → rem ≠ [] →
    Polled T.base (T.base t) r (fun n t' r' => (n = 0 ∧ .ready 0 ∈ (T.base t).answers) ∨ (0 < n ∧ writing i f (rem.drop n) t' r' ∧ Free T.base (T.base t) r t' r'))
      (fun t' r' => writing i f rem t' r') (T.pollWrite t rem)
  flush : ∀ {i f t r}, flushing i f t r →
    Polled T.base (T.base t) r (fun _ t' r' => idle (i + 1) t' ∧ r' = []) (fun t' r' => flushing i f t' r') (T.pollFlush t)
  pos : ∀ {n}, ok n → 0 < n
  base_set : ∀ t b, T.base (T.setBase t b) = b
  idle_set : ∀ {i t} b, idle i t → idle i (T.setBase t b)
  writing_set : ∀ {i f rem t r} b, writing i f rem t r → writing i f rem (T.setBase t b) r
  flushing_set : ∀ {i f t r} b, flushing i f t r → flushing i f (T.setBase t b) r

/-- `write_all` of tokio on such a transport. -/
theorem Sends.writeAll {τ : Type} {T : WriteT τ Socket} (S : Sends T) {i : Nat} {f : Bytes} : ∀ (n : Nat) {rem : Bytes} {t : τ} {r : Bytes}, rem.length ≤ n → S.writing i f rem t r →
    Polled (fun x : Bytes × τ => T.base x.2) (T.base t) r (fun _ x r' => x.1 = [] ∧ S.writing i f [] x.2 r' ∧ Free (fun x : Bytes × τ => T.base x.2) (T.base t) r x r')
      (fun x r' => S.writing i f x.1 x.2 r') (Layers.writeAll T t rem) := by
  intro n
  induction n with
  | zero =>
    intro rem t r hn h
    have : rem = [] := List.eq_nil_of_length_eq_zero (by omega)
    subst this
    unfold Layers.writeAll
    simp only [dif_pos]
    exact .ready ⟨rfl, h, .inr rfl⟩ (Adv.refl _ _)
  | succ n ih =>
    intro rem t r hn h
    unfold Layers.writeAll
    by_cases hr : rem = []
    · subst hr
      simp only [dif_pos]
      exact .ready ⟨rfl, h, .inr rfl⟩ (Adv.refl _ _)
    · rw [dif_neg hr]
      have hw := S.write h hr
      generalize T.pollWrite t rem = x at hw
      cases hw with
      | error hb hd => exact .error hb hd
      | pending h1 h2 h3 => exact .pending h1 h2 h3
      | @ready k t' r' h1 h2 =>
        rcases h1 with ⟨rfl, hb⟩ | ⟨h0, h1, h3⟩
        · exact .error (.inr ⟨rfl, hb⟩) h2
        · obtain ⟨k, rfl⟩ : ∃ m, k = m + 1 := ⟨k - 1, by omega⟩
          have := ih (rem := rem.drop (k + 1)) (t := t') (r := r') (by
            have : 0 < rem.length := List.length_pos_iff.2 hr
            simp only [List.length_drop]; omega) h1
          dsimp only
          generalize Layers.writeAll T t' (rem.drop (k + 1)) = x at this
          cases this with
          | error hb hd => exact .error (h2.fails hb) (h2.trans hd)
          | pending g1 g2 g3 => exact Polled.after h2 h3 (.pending g1 g2 g3)
          | ready g1 g2 =>
            refine .ready ⟨g1.1, g1.2.1, ?_⟩ (h2.trans g2)
            exact free_trans h2 h3 g2 g1.2.2

/-- A socket. -/
def socketSends : Sends socket where
  idle _ _ := True
  wrap _ f := f
  ok n := 0 < n
  writing _ _ rem _ r := r = rem
  flushing _ _ _ r := r = []
  start _ _ := rfl
  written h := h
  write := by
    intro i f rem t r hr hne
    subst hr
    obtain ⟨as, w⟩ := t
    have hl : 0 < r.length := List.length_pos_iff.2 hne
    cases as with
    | nil => exact .pending rfl (Adv.refl _ _) (.inr (by rintro ⟨n, l, h⟩; cases h))
    | cons a as =>
      have hs : as <:+ a :: as := List.suffix_cons _ _
      cases a with
      | pending => exact .pending rfl ⟨⟨[], rfl, by simp [socket]⟩, hs⟩ (.inr (by rintro ⟨n, l, h⟩; cases h))
      | fail e => exact .error (.inl (by simp [socket])) ⟨⟨[], rfl, by simp [socket]⟩, hs⟩
      | ready n =>
        refine .ready (a := min n r.length) (r' := r.drop n) ?_ ⟨⟨r.take n, by simp, rfl⟩, hs⟩
        cases n with
        | zero => exact .inl ⟨by simp, by simp [socket]⟩
        | succ n =>
          have hd : r.drop (min (n + 1) r.length) = r.drop (n + 1) := by
            by_cases h : n + 1 ≤ r.length
            · rw [Nat.min_eq_left h]
            · rw [Nat.min_eq_right (by omega), List.drop_of_length_le (Nat.le_refl _), List.drop_of_length_le (by omega)]
          refine .inr ⟨by omega, hd.symm, .inl fun h => ?_⟩
          have := congrArg List.length h
          simp at this
          omega
  flush := by
    intro i f t r hr
    subst hr
    obtain ⟨as, w⟩ := t
    cases as with
    | nil => exact .pending rfl (Adv.refl _ _) (.inr (by rintro ⟨n, l, h⟩; cases h))
    | cons a as =>
      have hs : as <:+ a :: as := List.suffix_cons _ _
      cases a with
      | pending => exact .pending rfl ⟨⟨[], rfl, by simp [socket]⟩, hs⟩ (.inr (by rintro ⟨n, l, h⟩; cases h))
      | fail e => exact .error (.inl (by simp [socket])) ⟨⟨[], rfl, by simp [socket]⟩, hs⟩
      | ready n => exact .ready (a := ()) (r' := []) ⟨trivial, rfl⟩ ⟨⟨[], rfl, by simp [socket]⟩, hs⟩
  pos h := h
  base_set _ _ := rfl
  idle_set _ _ := trivial
  writing_set _ h := h
  flushing_set _ h := h

/-! ### A layer -/

/-- Package number `i` of a layer, with plaintext `f`. -/
def pkg (A : Aead) (l : Layer) (i : Nat) (f : Bytes) : Bytes :=
  packageBytes ((A.enc l.key (nonceFromNumber (UInt64.ofNat (l.start + i))) f).getD [])

/-- The cipher of a layer after `i` packages. -/
def encAt (l : Layer) (i : Nat) (lg : List Encryption) : Encryptor := { key := l.key, count := UInt64.ofNat (l.start + i), log := lg }

/-- What a layer has encrypted after `m` packages: each with its own number. -/
def Logged (l : Layer) (m : Nat) (lg : List Encryption) : Prop :=
  ∃ new, lg = l.log ++ new ∧ new.length = m ∧ ∀ (j : Nat) x, new[j]? = some x → x.key = l.key ∧ x.nonce = nonceFromNumber (UInt64.ofNat (l.start + j))

theorem Logged.snoc {l : Layer} {m : Nat} {lg : List Encryption} (h : Logged l m lg) (plain : Bytes) :
    Logged l (m + 1) (lg ++ [{ key := l.key, nonce := nonceFromNumber (UInt64.ofNat (l.start + m)), plain := plain }]) := by
  obtain ⟨new, h1, h2, h3⟩ := h
  refine ⟨new ++ [{ key := l.key, nonce := nonceFromNumber (UInt64.ofNat (l.start + m)), plain := plain }], by rw [h1, List.append_assoc], by simp [h2], ?_⟩
  intro j x hx
  rw [List.getElem?_append] at hx
  split at hx
  · exact h3 j x hx
  · rename_i hj
    have hj' : j = m := by
      have := (List.getElem?_eq_some_iff.1 hx).1
      simp at this
      omega
    subst hj'
    simp only [h2, Nat.sub_self, List.getElem?_cons_zero, Option.some.injEq] at hx
    subst hx
    exact ⟨rfl, rfl⟩

theorem enc_some (A : Aead) (key nonce : Bytes) {f : Bytes} (h : f.length + 16 < 2 ^ 32) : ∃ c, A.enc key nonce f = some c ∧ c.length = f.length + 16 := by
  obtain ⟨c, hc⟩ := Option.isSome_iff_exists.1 (A.total key nonce f (by omega))
  exact ⟨c, hc, A.len _ _ _ _ hc⟩

theorem length_pkg (A : Aead) (l : Layer) (i : Nat) {f : Bytes} (h : f.length + 16 < 2 ^ 32) : (pkg A l i f).length = f.length + 20 := by
  obtain ⟨c, hc, hl⟩ := enc_some A l.key (nonceFromNumber (UInt64.ofNat (l.start + i))) h
  simp only [pkg, hc, Option.getD_some, packageBytes, List.length_append, length_putU32, hl]
  omega

theorem encrypt_encAt (A : Aead) {l : Layer} {i : Nat} {lg : List Encryption} (hl : Logged l i lg) {f : Bytes} (h : f.length + 16 < 2 ^ 32) :
    ∃ c lg', Logged l (i + 1) lg' ∧ (encAt l i lg).encrypt A f = (.ok c, encAt l (i + 1) lg') ∧ pkg A l i f = packageBytes c := by
  obtain ⟨c, hc, -⟩ := enc_some A l.key (nonceFromNumber (UInt64.ofNat (l.start + i))) h
  refine ⟨c, lg ++ [{ key := l.key, nonce := nonceFromNumber (UInt64.ofNat (l.start + i)), plain := f }], hl.snoc f, ?_, by simp only [pkg, hc, Option.getD_some]⟩
  simp only [Encryptor.encrypt, encAt, hc]
  refine Prod.ext rfl ?_
  dsimp only
  congr 1
  rw [← Nat.add_assoc]
  simp

section
variable {τ : Type} {T : WriteT τ Socket} (S : Sends T) (A : Aead) (l : Layer)

def LIdle (i : Nat) (s : WriteStream × τ) : Prop := (∃ lg, Logged l i lg ∧ s.1 = { enc := encAt l i lg }) ∧ S.idle i s.2

def LOk (n : Nat) : Prop := 0 < n ∧ n + 16 < 2 ^ 32 ∧ S.ok (n + 20)

def LFlushing (i : Nat) (f : Bytes) (s : WriteStream × τ) (r : Bytes) : Prop :=
  LOk S f.length ∧
  ((∃ lg, Logged l i lg ∧ s.1 = { enc := encAt l i lg, buffer := f } ∧ S.idle i s.2 ∧ r = S.wrap i (pkg A l i f)) ∨
   (∃ lg, Logged l (i + 1) lg ∧ s.1 = { enc := encAt l (i + 1) lg } ∧ S.flushing i (pkg A l i f) s.2 r) ∨
   (∃ lg rem, Logged l (i + 1) lg ∧ s.1 = { enc := encAt l (i + 1) lg, inner := false, cipher := false, futFlush := some (.writing rem) } ∧ S.writing i (pkg A l i f) rem s.2 r) ∨
   (∃ lg, Logged l (i + 1) lg ∧ s.1 = { enc := encAt l (i + 1) lg, inner := false, cipher := false, futFlush := some .flushing } ∧ S.flushing i (pkg A l i f) s.2 r))

def LWriting (i : Nat) (f rem : Bytes) (s : WriteStream × τ) (r : Bytes) : Prop :=
  LOk S f.length ∧
  ((rem = f ∧ LIdle S l i s ∧ r = S.wrap i (pkg A l i f)) ∨
   (rem = f ∧ ∃ lg rem', Logged l (i + 1) lg ∧ s.1 = { enc := encAt l (i + 1) lg, inner := false, cipher := false, futWrite := some rem' } ∧ S.writing i (pkg A l i f) rem' s.2 r) ∨
   (rem = [] ∧ LFlushing S A l i f s r))

variable {S A l}

theorem LOk.pkg (A : Aead) (l : Layer) {i : Nat} {f : Bytes} (h : LOk S f.length) : S.ok (pkg A l i f).length := by
  rw [length_pkg A l i h.2.1]; exact h.2.2

/-- io_impl.rs:126-135 -/
theorem polled_futWrite {i : Nat} {f rem : Bytes} {ws : WriteStream} {t : τ} {r : Bytes} {lg : List Encryption} {fu : Option Bytes} (hok : LOk S f.length) (hlg : Logged l (i + 1) lg)
    (hws : ws = { enc := encAt l (i + 1) lg, inner := false, cipher := false, futWrite := fu }) (h : S.writing i (pkg A l i f) rem t r) (hf : f ≠ []) :
    Polled (fun x : WriteStream × τ => T.base x.2) (T.base t) r
      (fun n x r' => (n = 0 ∧ .ready 0 ∈ (T.base t).answers) ∨ (0 < n ∧ LWriting S A l i f (f.drop n) x r' ∧ Free (fun x : WriteStream × τ => T.base x.2) (T.base t) r x r'))
      (fun x r' => LWriting S A l i f f x r') (pollFutWrite T ws t rem f.length) := by
  subst hws
  have hw := S.writeAll _ (Nat.le_refl _) h
  unfold pollFutWrite
  generalize Layers.writeAll T t rem = x at hw
  cases hw with
  | error hb hd => exact .error hb hd
  | @pending x r' h1 h2 h3 =>
    obtain ⟨rem', t'⟩ := x
    exact .pending (r' := r') ⟨hok, .inr (.inl ⟨rfl, lg, rem', hlg, rfl, h1⟩)⟩ h2 h3
  | @ready a x r' h1 h2 =>
    obtain ⟨rem', t'⟩ := x
    obtain ⟨-, h1, h3⟩ := h1
    refine .ready (r' := r') (.inr ⟨List.length_pos_iff.2 hf, ⟨hok, .inr (.inr ⟨by simp, hok, .inr (.inl ⟨lg, hlg, rfl, S.written h1⟩)⟩)⟩, h3⟩) h2

theorem polled_write {i : Nat} {f rem : Bytes} {s : WriteStream × τ} {r : Bytes} (h : LWriting S A l i f rem s r) (hne : rem ≠ []) :
    Polled (fun x : WriteStream × τ => T.base x.2) (T.base s.2) r
      (fun n x r' => (n = 0 ∧ .ready 0 ∈ (T.base s.2).answers) ∨ (0 < n ∧ LWriting S A l i f (rem.drop n) x r' ∧ Free (fun x : WriteStream × τ => T.base x.2) (T.base s.2) r x r'))
      (fun x r' => LWriting S A l i f rem x r') (pollWrite T A s rem) := by
  obtain ⟨hok, h⟩ := h
  obtain ⟨ws, t⟩ := s
  rcases h with ⟨rfl, ⟨⟨lg, hlg, rfl⟩, hi⟩, rfl⟩ | ⟨rfl, lg, rem', hlg, rfl, hw⟩ | ⟨rfl, -⟩
  · have htk : rem.take u32Max = rem := List.take_of_length_le (by have := hok.2.1; unfold u32Max; omega)
    have hdr : rem.drop u32Max = [] := List.drop_of_length_le (by have := hok.2.1; unfold u32Max; omega)
    simp only [pollWrite, List.nil_append, htk, hdr, Bool.and_self, if_true]
    split
    · obtain ⟨c, lg', hlg', he, hp⟩ := encrypt_encAt A hlg hok.2.1
      rw [he]
      dsimp only
      rw [← hp]
      exact polled_futWrite hok hlg' rfl (S.start hi (hok.pkg A l)) hne
    · refine .ready (r' := S.wrap i (pkg A l i rem)) (.inr ⟨List.length_pos_iff.2 hne, ⟨hok, .inr (.inr ⟨by simp, hok, .inl ⟨lg, hlg, rfl, hi, rfl⟩⟩)⟩, .inr rfl⟩) (Adv.refl _ _)
  · simp only [pollWrite]
    exact polled_futWrite hok hlg rfl hw hne
  · exact absurd rfl hne

/-- io_impl.rs:157-161 and 164-173 -/
theorem polled_futFlush {i : Nat} {f : Bytes} {ws : WriteStream} {t : τ} {r : Bytes} {lg : List Encryption} {fu : Option FlushFut} (hok : LOk S f.length) (hlg : Logged l (i + 1) lg)
    (hws : ws = { enc := encAt l (i + 1) lg, inner := false, cipher := false, futFlush := fu }) (h : S.flushing i (pkg A l i f) t r) :
    Polled (fun x : WriteStream × τ => T.base x.2) (T.base t) r (fun _ x r' => LIdle S l (i + 1) x ∧ r' = []) (fun x r' => LFlushing S A l i f x r') (pollFutFlush T ws t) := by
  subst hws
  have hw := S.flush h
  unfold pollFutFlush
  generalize T.pollFlush t = x at hw
  cases hw with
  | error hb hd => exact .error hb hd
  | @pending t' r' h1 h2 h3 => exact .pending (r' := r') ⟨hok, .inr (.inr (.inr ⟨lg, hlg, rfl, h1⟩))⟩ h2 h3
  | @ready a t' r' h1 h2 => exact .ready (r' := r') ⟨⟨⟨lg, hlg, rfl⟩, h1.1⟩, h1.2⟩ h2

/-- io_impl.rs:148-161 -/
theorem polled_flushWrite {i : Nat} {f rem : Bytes} {ws : WriteStream} {t : τ} {r : Bytes} {lg : List Encryption} {fu : Option FlushFut} (hok : LOk S f.length) (hlg : Logged l (i + 1) lg)
    (hws : ws = { enc := encAt l (i + 1) lg, inner := false, cipher := false, futFlush := fu }) (h : S.writing i (pkg A l i f) rem t r) :
    Polled (fun x : WriteStream × τ => T.base x.2) (T.base t) r (fun _ x r' => LIdle S l (i + 1) x ∧ r' = []) (fun x r' => LFlushing S A l i f x r') (pollFlushWrite T ws t rem) := by
  subst hws
  have hw := S.writeAll _ (Nat.le_refl _) h
  unfold pollFlushWrite
  generalize Layers.writeAll T t rem = x at hw
  cases hw with
  | error hb hd => exact .error hb hd
  | @pending x r' h1 h2 h3 =>
    obtain ⟨rem', t'⟩ := x
    exact .pending (r' := r') ⟨hok, .inr (.inr (.inl ⟨lg, rem', hlg, rfl, h1⟩))⟩ h2 h3
  | @ready a x r' h1 h2 =>
    obtain ⟨rem', t'⟩ := x
    obtain ⟨-, h1, h3⟩ := h1
    exact Polled.after h2 h3 (polled_futFlush hok hlg rfl (S.written h1))

theorem polled_flush {i : Nat} {f : Bytes} {s : WriteStream × τ} {r : Bytes} (h : LFlushing S A l i f s r) :
    Polled (fun x : WriteStream × τ => T.base x.2) (T.base s.2) r (fun _ x r' => LIdle S l (i + 1) x ∧ r' = []) (fun x r' => LFlushing S A l i f x r') (pollFlush T A s) := by
  obtain ⟨hok, h⟩ := h
  obtain ⟨ws, t⟩ := s
  rcases h with ⟨lg, hlg, rfl, hi, rfl⟩ | ⟨lg, hlg, rfl, hw⟩ | ⟨lg, rem, hlg, rfl, hw⟩ | ⟨lg, hlg, rfl, hw⟩
  · have htk : f.take u32Max = f := List.take_of_length_le (by have := hok.2.1; unfold u32Max; omega)
    have hdr : f.drop u32Max = [] := List.drop_of_length_le (by have := hok.2.1; unfold u32Max; omega)
    simp only [pollFlush, htk, hdr, Bool.and_self, if_true]
    rw [if_pos hok.1]
    obtain ⟨c, lg', hlg', he, hp⟩ := encrypt_encAt A hlg hok.2.1
    rw [he]
    dsimp only
    rw [← hp]
    exact polled_flushWrite hok hlg' rfl (S.start hi (hok.pkg A l))
  · simp only [pollFlush, List.take_nil, List.drop_nil, Bool.and_self, if_true, List.length_nil, Nat.lt_irrefl, if_false]
    exact polled_futFlush hok hlg rfl hw
  · simp only [pollFlush]
    exact polled_flushWrite hok hlg rfl hw
  · simp only [pollFlush]
    exact polled_futFlush hok hlg rfl hw

end

/-- An encrypted layer over such a transport is such a transport. -/
def Sends.layer {τ : Type} {T : WriteT τ Socket} (S : Sends T) (A : Aead) (l : Layer) : Sends (encryptedW T A) where
  idle := LIdle S l
  wrap i f := S.wrap i (pkg A l i f)
  ok := LOk S
  writing := LWriting S A l
  flushing := LFlushing S A l
  start h hok := ⟨hok, .inl ⟨rfl, h, rfl⟩⟩
  written := by
    rintro i f t r ⟨hok, ⟨h, -⟩ | ⟨h, -⟩ | ⟨-, h⟩⟩
    · exact absurd hok.1 (by rw [← h]; simp)
    · exact absurd hok.1 (by rw [← h]; simp)
    · exact h
  write h hne := polled_write h hne
  flush h := polled_flush h
  pos h := h.1
  base_set t b := S.base_set t.2 b
  idle_set b h := ⟨h.1, S.idle_set b h.2⟩
  writing_set := by
    rintro i f rem ⟨ws, t⟩ r b ⟨hok, ⟨h1, ⟨h2, h3⟩, h4⟩ | ⟨h1, lg, rem', hlg, h2, h3⟩ | ⟨h1, -, ⟨lg, hlg, h2, h3, h4⟩ | ⟨lg, hlg, h2, h3⟩ | ⟨lg, rem', hlg, h2, h3⟩ | ⟨lg, hlg, h2, h3⟩⟩⟩
    · exact ⟨hok, .inl ⟨h1, ⟨h2, S.idle_set b h3⟩, h4⟩⟩
    · exact ⟨hok, .inr (.inl ⟨h1, lg, rem', hlg, h2, S.writing_set b h3⟩)⟩
    · exact ⟨hok, .inr (.inr ⟨h1, hok, .inl ⟨lg, hlg, h2, S.idle_set b h3, h4⟩⟩)⟩
    · exact ⟨hok, .inr (.inr ⟨h1, hok, .inr (.inl ⟨lg, hlg, h2, S.flushing_set b h3⟩)⟩)⟩
    · exact ⟨hok, .inr (.inr ⟨h1, hok, .inr (.inr (.inl ⟨lg, rem', hlg, h2, S.writing_set b h3⟩))⟩)⟩
    · exact ⟨hok, .inr (.inr ⟨h1, hok, .inr (.inr (.inr ⟨lg, hlg, h2, S.flushing_set b h3⟩))⟩)⟩
  flushing_set := by
    rintro i f ⟨ws, t⟩ r b ⟨hok, ⟨lg, hlg, h2, h3, h4⟩ | ⟨lg, hlg, h2, h3⟩ | ⟨lg, rem', hlg, h2, h3⟩ | ⟨lg, hlg, h2, h3⟩⟩
    · exact ⟨hok, .inl ⟨lg, hlg, h2, S.idle_set b h3, h4⟩⟩
    · exact ⟨hok, .inr (.inl ⟨lg, hlg, h2, S.flushing_set b h3⟩)⟩
    · exact ⟨hok, .inr (.inr (.inl ⟨lg, rem', hlg, h2, S.writing_set b h3⟩))⟩
    · exact ⟨hok, .inr (.inr (.inr ⟨lg, hlg, h2, S.flushing_set b h3⟩))⟩

end Bromine.Layers
