import Verif.Lemmas.LayersWrite
import Verif.Lemmas.Crypt
/-
Reading through encrypted layers.
-/
namespace Bromine.Layers
open Bromine CryptIO

section
variable {ρ : Type} (R : ReadT ρ) (closed : Bool)

/-- The answers of the socket that are left. -/
abbrev size (r : ρ) : Nat := (R.base r).chunks.length

/-- The socket has been asked: it has fewer answers left, or none and bytes are missing and it stays open. -/
def Waits (av : Option Bytes) (r r' : ρ) : Prop := size R r' < size R r ∨ (av = none ∧ closed = false ∧ size R r' = 0)

/-- The result of a poll with room for `want` bytes, if the bytes to come are `cur`: it gives some of them; or the connection is closed before the end of them; or it is pending. -/
inductive Got (at_ : Bytes → ρ → Prop) (cur : Bytes) (av : Option Bytes) (want : Nat) (r : ρ) : Poll Unit × Bytes × ρ → Prop
  | ready {b bs cur' r'} : cur = b :: bs ++ cur' → (b :: bs).length ≤ want → at_ cur' r' → size R r' ≤ size R r → Got at_ cur av want r (.ready (.ok ()), b :: bs, r')
  | eof {r'} : av = none → closed = true → Got at_ cur av want r (.ready (.ok ()), [], r')
  | error {bs r'} : av = none → closed = true → Got at_ cur av want r (.ready (.error .unexpectedEof), bs, r')
  | pending {r'} : at_ cur r' → Waits R closed av r r' → Got at_ cur av want r (.pending true, [], r')

/-- The result of a poll if there are no bytes. -/
inductive Nothing (empty : ρ → Prop) (r : ρ) : Poll Unit × Bytes × ρ → Prop
  | eof {r'} : closed = true → Nothing empty r (.ready (.ok ()), [], r')
  | error {r'} : closed = true → Nothing empty r (.ready (.error .unexpectedEof), [], r')
  | pending {r'} : empty r' → Waits R closed none r r' → Nothing empty r (.pending true, [], r')

/-- What is proved of a transport. `idle i r b`: `i` frames have been read, nothing else, and `b` is what the socket still has; `at_ i cur av r`: of frame number `i`, `cur` is still to be read, and after it the
socket has the bytes `rest` if `av = some rest`; if `av = none` then it ends before. `empty`: nothing is there to be read. -/
structure Receives where
  idle : Nat → ρ → Bytes → Prop
  at_ : Nat → Bytes → Option Bytes → ρ → Prop
  empty : ρ → Prop
  wrap : Nat → Bytes → Bytes
  ok : Nat → Prop
  none_left : ∀ {i r}, idle i r [] → empty r
  poll_empty : ∀ {r want}, empty r → 0 < want → Nothing R closed empty r (R.pollRead r want)
  start : ∀ {i f rest r}, idle i r (wrap i f ++ rest) → ok f.length → at_ i f (some rest) r
  cut : ∀ {i f b z r}, idle i r b → b ++ z = wrap i f → z ≠ [] → ok f.length → at_ i f none r
  finish : ∀ {i rest r}, at_ i [] (some rest) r → idle (i + 1) r rest
  unfinished : ∀ {i r}, ¬ at_ i [] none r
  idle_base : ∀ {i r b}, idle i r b → (R.base r).closed = closed ∧ flat (R.base r).chunks = b
  base_set : ∀ r sc, R.base (R.setBase r sc) = sc
  idle_set : ∀ {i r b} sc, idle i r b → sc.closed = closed → idle i (R.setBase r sc) (flat sc.chunks)
  poll : ∀ {i cur av r want}, at_ i cur av r → 0 < want → want ≤ cur.length → Got R closed (fun c r => at_ i c av r) cur av want r (R.pollRead r want)

variable {R closed}

/-- A poll of `read_exact` or `read_u32` with `k` bytes missing. -/
inductive Filled (at_ : Bytes → ρ → Prop) (closed : Bool) (R : ReadT ρ) (got cur : Bytes) (av : Option Bytes) (k : Nat) (r : ρ) : Fill ρ → Prop
  | done {r'} : at_ (cur.drop k) r' → size R r' ≤ size R r → Filled at_ closed R got cur av k r (.done (got ++ cur.take k) r')
  | pending {y cur' r'} : cur = y ++ cur' → y.length < k → at_ cur' r' → Waits R closed av r r' → Filled at_ closed R got cur av k r (.pending true (got ++ y) r')
  | fail {r'} : av = none → closed = true → Filled at_ closed R got cur av k r (.fail .unexpectedEof r')

theorem Waits.trans {av : Option Bytes} {r r' r'' : ρ} (h : size R r' ≤ size R r) (h' : Waits R closed av r' r'') : Waits R closed av r r'' := by
  rcases h' with h' | h'
  · exact .inl (by omega)
  · exact .inr h'

theorem Receives.fill (S : Receives R closed) (int : Bool) {i : Nat} {av : Option Bytes} : ∀ (k : Nat) {n : Nat} {got cur : Bytes} {r : ρ}, n - got.length = k → k ≤ cur.length → S.at_ i cur av r →
    Filled (fun c r => S.at_ i c av r) closed R got cur av k r (Layers.fill R int n got r) := by
  intro k
  induction k using Nat.strongRecOn with
  | ind k ih =>
    intro n got cur r hk hle h
    unfold Layers.fill
    by_cases h0 : n ≤ got.length
    · rw [if_pos h0]
      have : k = 0 := by omega
      subst this
      have := Filled.done (at_ := fun c r => S.at_ i c av r) (closed := closed) (R := R) (got := got) (cur := cur) (av := av) (k := 0) (r := r) (r' := r) h (Nat.le_refl _)
      simpa using this
    · rw [if_neg h0, hk]
      have hp := S.poll (want := k) h (by omega) hle
      generalize R.pollRead r k = x at hp
      cases hp with
      | eof h1 h2 => exact .fail h1 h2
      | error h1 h2 => exact .fail h1 h2
      | @pending r' h1 h2 =>
        have := Filled.pending (at_ := fun c r => S.at_ i c av r) (closed := closed) (R := R) (got := got) (cur := cur) (av := av) (k := k) (r := r) (y := []) (r' := r') rfl
          (show 0 < k by omega) h1 h2
        cases int <;> simpa using this
      | @ready b bs cur' r' h1 h2 h3 h4 =>
        dsimp only
        have hlen : (got ++ b :: bs).length = got.length + (b :: bs).length := by simp
        have hpos : 0 < (b :: bs).length := by simp
        have hc := congrArg List.length h1
        rw [List.length_append] at hc
        have := ih (k - (b :: bs).length) (by omega) (n := n) (got := got ++ b :: bs) (cur := cur') (r := r') (by rw [hlen]; omega) (by omega) h3
        generalize Layers.fill R int n (got ++ b :: bs) r' = x at this
        subst h1
        cases this with
        | fail g1 g2 => exact .fail g1 g2
        | @done r'' g1 g2 =>
          have e1 : (b :: bs ++ cur').drop k = cur'.drop (k - (b :: bs).length) := by rw [List.drop_append, List.drop_of_length_le h2, List.nil_append]
          have e2 : (b :: bs ++ cur').take k = b :: bs ++ cur'.take (k - (b :: bs).length) := by rw [List.take_append, List.take_of_length_le h2]
          have := Filled.done (at_ := fun c r => S.at_ i c av r) (closed := closed) (R := R) (got := got) (cur := b :: bs ++ cur') (av := av) (k := k) (r := r) (r' := r'')
            (by rw [e1]; exact g1) (by omega)
          rw [e2] at this
          rw [List.append_assoc]
          exact this
        | @pending y cur'' r'' g1 g2 g3 g4 =>
          have := Filled.pending (at_ := fun c r => S.at_ i c av r) (closed := closed) (R := R) (got := got) (cur := b :: bs ++ cur') (av := av) (k := k) (r := r) (y := b :: bs ++ y) (r' := r'')
            (cur' := cur'') (by rw [g1]; simp) (by rw [List.length_append]; omega) g3 (g4.trans h4)
          rw [List.append_assoc]
          exact this

/-- A poll of `EncryptedPackage::from_async_read`. -/
inductive Packed (S : Receives R closed) (i : Nat) (p : Bytes) (av : Option Bytes) (r : ρ) : Fill ρ → Prop
  | done {rest r'} : av = some rest → S.idle (i + 1) r' rest → size R r' ≤ size R r → Packed S i p av r (.done p r')
  | pending {acc p' r'} : p = acc ++ p' → p' ≠ [] → S.at_ i p' av r' → Waits R closed av r r' → Packed S i p av r (.pending true acc r')
  | fail {r'} : av = none → closed = true → Packed S i p av r (.fail .unexpectedEof r')

theorem Receives.pollBody (S : Receives R closed) {i : Nat} {p acc p' : Bytes} {av : Option Bytes} {r : ρ} (hp : p = acc ++ p') (h4 : 4 ≤ acc.length) (hc : complete p = true)
    (h : S.at_ i p' av r) : Packed S i p av r (Layers.fill R false (4 + beVal (acc.take 4)) acc r) := by
  rw [complete_iff] at hc
  have e : acc.take 4 = p.take 4 := by rw [hp, List.take_append_of_le_length h4]
  have hn : 4 + beVal (acc.take 4) - acc.length = p'.length := by rw [e, ← hc.2, hp, List.length_append]; omega
  have := S.fill false p'.length hn (Nat.le_refl _) h
  generalize Layers.fill R false (4 + beVal (acc.take 4)) acc r = x at this
  cases this with
  | fail g1 g2 => exact .fail g1 g2
  | @pending y cur' r' g1 g2 g3 g4 =>
    refine .pending (p' := cur') (by rw [hp, g1]; simp) ?_ g3 g4
    rintro rfl
    rw [g1] at g2
    simp at g2
  | @done r' g1 g2 =>
    rw [List.drop_of_length_le (Nat.le_refl _)] at g1
    rw [List.take_of_length_le (Nat.le_refl _), ← hp]
    cases av with
    | none => exact absurd g1 S.unfinished
    | some rest => exact .done rfl (S.finish g1) g2

theorem Receives.pollPackage (S : Receives R closed) {i : Nat} {p acc p' : Bytes} {av : Option Bytes} {r : ρ} (hp : p = acc ++ p') (hc : complete p = true)
    (h : S.at_ i p' av r) : Packed S i p av r (Layers.pollPackage R acc r) := by
  unfold Layers.pollPackage
  by_cases h4 : acc.length < 4
  · rw [if_pos h4]
    have hc' := complete_iff.1 hc
    have hl := congrArg List.length hp
    rw [List.length_append] at hl
    have := S.fill true (4 - acc.length) (n := 4) (got := acc) rfl (by omega) h
    generalize Layers.fill R true 4 acc r = x at this
    cases this with
    | fail g1 g2 => exact .fail g1 g2
    | @pending y cur' r' g1 g2 g3 g4 =>
      refine .pending (p' := cur') (by rw [hp, g1]; simp) ?_ g3 g4
      rintro rfl
      have := congrArg List.length g1
      simp at this
      omega
    | @done r' g1 g2 =>
      dsimp only
      have := S.pollBody (p := p) (acc := acc ++ p'.take (4 - acc.length)) (p' := p'.drop (4 - acc.length)) (by rw [hp]; simp)
        (by rw [List.length_append, List.length_take]; omega) hc g1
      generalize Layers.fill R false (4 + beVal ((acc ++ p'.take (4 - acc.length)).take 4)) (acc ++ p'.take (4 - acc.length)) r' = x at this
      cases this with
      | fail g1 g2 => exact .fail g1 g2
      | pending k1 k2 k3 k4 => exact .pending k1 k2 k3 (k4.trans g2)
      | done k1 k2 k3 => exact .done k1 k2 (by omega)
  · rw [if_neg h4]
    exact S.pollBody hp (by omega) hc h

end

/-! ### A socket -/

theorem length_pushRest (bs : Bytes) (cs : List Chunk) : (pushRest bs cs).length ≤ cs.length + 1 := by
  cases bs <;> simp [pushRest]

/-- A socket. -/
def socketReceives (closed : Bool) : Receives socketR closed where
  idle _ s b := s.closed = closed ∧ flat s.chunks = b
  at_ _ cur av s := s.closed = closed ∧ ((∃ rest, av = some rest ∧ flat s.chunks = cur ++ rest) ∨ (av = none ∧ ∃ z, z ≠ [] ∧ flat s.chunks ++ z = cur))
  empty s := s.closed = closed ∧ flat s.chunks = []
  wrap _ f := f
  ok n := 0 < n
  none_left h := h
  poll_empty := by
    rintro ⟨cs, cl⟩ want ⟨rfl, h⟩ h0
    cases cs with
    | nil =>
      cases cl with
      | true => exact .eof rfl
      | false => exact .pending ⟨rfl, h⟩ (.inr ⟨rfl, rfl, rfl⟩)
    | cons c cs =>
      cases c with
      | pending => exact .pending ⟨rfl, by simpa [Chunk.bytes] using h⟩ (.inl (by simp [socketR, size]))
      | data b bs => simp [Chunk.bytes] at h
  start := fun h _ => ⟨h.1, .inl ⟨_, rfl, h.2⟩⟩
  cut := fun h hb hz _ => ⟨h.1, .inr ⟨rfl, _, hz, by rw [h.2]; exact hb⟩⟩
  finish := by
    rintro i rest r ⟨hcl, ⟨rest', h1, h2⟩ | ⟨h, -⟩⟩
    · cases h1; exact ⟨hcl, by simpa using h2⟩
    · cases h
  unfinished := by
    rintro i r ⟨hcl, ⟨rest', h1, h2⟩ | ⟨-, z, hz, h⟩⟩
    · cases h1
    · simp at h; exact hz h.2
  idle_base h := h
  base_set _ _ := rfl
  idle_set _ _ h := ⟨h, rfl⟩
  poll := by
    rintro i cur av ⟨cs, cl⟩ want ⟨rfl, h⟩ h0 hle
    cases cs with
    | nil =>
      have hav : av = none := by
        rcases h with ⟨rest, -, h⟩ | ⟨h, -⟩
        · have := congrArg List.length h
          simp at this
          omega
        · exact h
      cases cl with
      | true => exact .eof hav rfl
      | false => exact .pending ⟨rfl, h⟩ (.inr ⟨hav, rfl, rfl⟩)
    | cons c cs =>
      cases c with
      | pending => exact .pending ⟨rfl, by simpa [Chunk.bytes] using h⟩ (.inl (by simp [socketR, size]))
      | data b bs =>
        obtain ⟨want, rfl⟩ : ∃ w, want = w + 1 := ⟨want - 1, by omega⟩
        have hfl : flat (.data b bs :: cs) = (b :: bs) ++ flat cs := by simp [Chunk.bytes]
        have hnew : flat (pushRest ((b :: bs).drop (want + 1)) cs) = bs.drop want ++ flat cs := by rw [flat_pushRest]; rfl
        have hsz := length_pushRest ((b :: bs).drop (want + 1)) cs
        have hcur : ∃ cur', cur = b :: bs.take want ++ cur' ∧
            ((∃ rest, av = some rest ∧ bs.drop want ++ flat cs = cur' ++ rest) ∨ (av = none ∧ ∃ z, z ≠ [] ∧ bs.drop want ++ flat cs ++ z = cur')) := by
          have hsplit : (b :: bs) ++ flat cs = (b :: bs.take want) ++ (bs.drop want ++ flat cs) := by
            rw [← List.append_assoc]; congr 1; rw [List.cons_append, List.take_append_drop]
          rcases h with ⟨rest, h1, h2⟩ | ⟨h1, z, hz, h2⟩
          · dsimp only at h2
            rw [hfl, hsplit] at h2
            have hl : (b :: bs.take want).length ≤ cur.length := by simp; omega
            have hpre : b :: bs.take want <+: cur := by
              have h3 : b :: bs.take want <+: cur ++ rest := ⟨_, h2⟩
              exact List.prefix_of_prefix_length_le h3 (List.prefix_append _ _) hl
            obtain ⟨cur', rfl⟩ := hpre
            exact ⟨cur', rfl, .inl ⟨rest, h1, by rw [List.append_assoc] at h2; exact List.append_cancel_left h2⟩⟩
          · dsimp only at h2
            rw [hfl, hsplit, List.append_assoc] at h2
            exact ⟨_, h2.symm, .inr ⟨h1, z, hz, rfl⟩⟩
        obtain ⟨cur', h1, h2⟩ := hcur
        show Got socketR _ _ cur av (want + 1) _ (.ready (.ok ()), b :: bs.take want, { chunks := pushRest ((b :: bs).drop (want + 1)) cs, closed := cl })
        refine .ready h1 (by simp; omega) ⟨rfl, ?_⟩ ?_
        · dsimp only; rw [hnew]; exact h2
        · simpa [socketR, size] using hsz

/-! ### A layer -/

/-- The cipher of the receiver after `i` packages. -/
def decAt (l : Layer) (i : Nat) : Decryptor := { key := l.key, count := UInt64.ofNat (l.start + i) }

section
variable {ρ : Type} {R : ReadT ρ} {closed : Bool} (S : Receives R closed) (A : Aead) (l : Layer)

def LRIdle (i : Nat) (s : ReadStream × ρ) (b : Bytes) : Prop := s.1 = { dec := decAt l i } ∧ S.idle i s.2 b

def LROk (n : Nat) : Prop := 0 < n ∧ n + 16 < 2 ^ 32 ∧ S.ok (n + 20)

/-- The package with the plaintext `cur` is not complete. -/
def LBefore (i : Nat) (cur : Bytes) (av : Option Bytes) (s : ReadStream × ρ) : Prop :=
  ∃ acc p', 0 < cur.length ∧ cur.length + 16 < 2 ^ 32 ∧ s.1.dec = decAt l i ∧ s.1.remaining = [] ∧ ((s.1.fut = none ∧ acc = []) ∨ s.1.fut = some (.reading acc)) ∧
    pkg A l i cur = acc ++ p' ∧ p' ≠ [] ∧ S.at_ i p' av s.2

/-- The package is complete, and `cur` is left of its plaintext. -/
def LAfter (i : Nat) (cur : Bytes) (av : Option Bytes) (s : ReadStream × ρ) : Prop :=
  ∃ rest, av = some rest ∧ s.1 = { dec := decAt l (i + 1), remaining := cur } ∧ S.idle (i + 1) s.2 rest

variable {S A l}

theorem decrypt_pkg {i : Nat} {f : Bytes} (h : f.length + 16 < 2 ^ 32) :
    complete (pkg A l i f) = true ∧ (decAt l i).decrypt A ((pkg A l i f).drop 4) = (.ok f, decAt l (i + 1)) := by
  obtain ⟨c, hc, hl⟩ := enc_some A l.key (nonceFromNumber (UInt64.ofNat (l.start + i))) h
  have hp : pkg A l i f = packageBytes c := by simp only [pkg, hc, Option.getD_some]
  rw [hp, drop_package]
  refine ⟨complete_package (by omega), ?_⟩
  simp only [Decryptor.decrypt, decAt, (A.dec_iff _ _ _ _).2 hc]
  refine Prod.ext rfl ?_
  dsimp only
  congr 1
  rw [← Nat.add_assoc]
  simp

/-- io_impl.rs:72-95: the package is being read. -/
theorem got_futRead {i : Nat} {cur acc p' : Bytes} {av : Option Bytes} {rs : ReadStream} {r : ρ} {want : Nat} (h0 : 0 < want) (hle : want ≤ cur.length)
    (hsz : cur.length + 16 < 2 ^ 32) (hrs : rs = { dec := decAt l i, fut := some (.reading acc) }) (hp : pkg A l i cur = acc ++ p') (h : S.at_ i p' av r) :
    Got (encryptedR R A) closed (fun c s => LBefore S A l i c av s ∨ LAfter S l i c av s) cur av want (rs, r) (pollFutRead R A rs r want) := by
  subst hrs
  obtain ⟨hc, hd⟩ := decrypt_pkg (A := A) (l := l) (i := i) hsz
  have hw := S.pollPackage hp hc h
  unfold pollFutRead
  dsimp only
  generalize Layers.pollPackage R acc r = x at hw
  cases hw with
  | fail g1 g2 => exact .error g1 g2
  | @pending acc' p'' r' g1 g2 g3 g4 => exact .pending (.inl ⟨acc', p'', by omega, hsz, rfl, rfl, .inr rfl, g1, g2, g3⟩) g4
  | @done rest r' g1 g2 g3 =>
    dsimp only
    rw [hd]
    dsimp only
    rw [List.nil_append, if_pos hle]
    cases htk : cur.take want with
    | nil =>
      have := congrArg List.length htk
      rw [List.length_take, List.length_nil] at this
      omega
    | cons b bs =>
      refine .ready (cur' := cur.drop want) (by rw [← htk, List.take_append_drop]) (by rw [← htk, List.length_take]; omega) (.inr ⟨rest, g1, rfl, g2⟩) g3

theorem got_read {i : Nat} {cur : Bytes} {av : Option Bytes} {s : ReadStream × ρ} {want : Nat} (h : LBefore S A l i cur av s ∨ LAfter S l i cur av s) (h0 : 0 < want) (hle : want ≤ cur.length) :
    Got (encryptedR R A) closed (fun c s => LBefore S A l i c av s ∨ LAfter S l i c av s) cur av want s (pollRead R A s want) := by
  obtain ⟨rs, r⟩ := s
  rcases h with ⟨acc, p', hpos, hsz, h1, h2, h3, h4, h5, h6⟩ | ⟨rest, h1, h2, h3⟩
  · obtain ⟨dec, rem, fut⟩ := rs
    dsimp only at h1 h2 h3
    subst h1 h2
    rcases h3 with ⟨rfl, rfl⟩ | rfl
    · have := got_futRead (R := R) (S := S) h0 hle hsz rfl h4 h6
      simp only [pollRead, List.take_nil, List.drop_nil, List.length_nil, h0, if_true, List.nil_append, Nat.sub_zero]
      -- the state before differs in `fut` only, which does not matter for its size
      generalize hx : pollFutRead R A { dec := decAt l i, fut := some (.reading []) } r want = x at this
      cases this with
      | ready k1 k2 k3 k4 => exact .ready k1 k2 k3 k4
      | eof k1 k2 => exact .eof k1 k2
      | error k1 k2 => exact .error k1 k2
      | pending k1 k2 => exact .pending k1 k2
    · simp only [pollRead]
      exact got_futRead h0 hle hsz rfl h4 h6
  · dsimp only at h2 h3
    subst h2
    have hl : (cur.take want).length = want := by rw [List.length_take]; omega
    simp only [pollRead, hl, Nat.lt_irrefl, if_false]
    cases htk : cur.take want with
    | nil => rw [htk] at hl; simp at hl; omega
    | cons b bs =>
      refine .ready (cur' := cur.drop want) (by rw [← htk, List.take_append_drop]) (by rw [← htk]; omega) (.inr ⟨rest, h1, rfl, h3⟩) (Nat.le_refl _)

end

/-- Nothing has been read of the next package, and nothing is there. -/
def LEmpty {ρ : Type} {R : ReadT ρ} {closed : Bool} (S : Receives R closed) (s : ReadStream × ρ) : Prop :=
  s.1.remaining = [] ∧ (s.1.fut = none ∨ s.1.fut = some (.reading [])) ∧ S.empty s.2

theorem empty_read {ρ : Type} {R : ReadT ρ} {closed : Bool} {S : Receives R closed} (A : Aead) {s : ReadStream × ρ} {want : Nat} (h : LEmpty S s) (h0 : 0 < want) :
    Nothing (encryptedR R A) closed (LEmpty S) s (pollRead R A s want) := by
  obtain ⟨⟨dec, rem, fut⟩, r⟩ := s
  obtain ⟨h1, h2, h3⟩ := h
  dsimp only at h1 h2 h3
  subst h1
  have hpoll : pollRead R A ({ dec := dec, fut := fut }, r) want = pollFutRead R A { dec := dec, fut := some (.reading []) } r want := by
    rcases h2 with rfl | rfl
    · simp [pollRead, h0]
    · simp [pollRead]
  rw [hpoll]
  have hp := S.poll_empty h3 (show 0 < 4 by omega)
  unfold pollFutRead pollPackage fill
  simp only [List.length_nil, Nat.zero_lt_succ, if_true, Nat.sub_zero]
  rw [if_neg (by omega)]
  generalize R.pollRead r 4 = x at hp
  cases hp with
  | eof g => exact .error g
  | error g => exact .error g
  | pending g1 g2 => exact .pending ⟨rfl, .inr rfl, g1⟩ g2

/-- An encrypted layer over such a transport is such a transport. -/
def Receives.layer {ρ : Type} {R : ReadT ρ} {closed : Bool} (S : Receives R closed) (A : Aead) (l : Layer) : Receives (encryptedR R A) closed where
  idle := LRIdle S l
  at_ i cur av s := LBefore S A l i cur av s ∨ LAfter S l i cur av s
  empty := LEmpty S
  wrap i f := S.wrap i (pkg A l i f)
  ok := LROk S
  none_left := by
    rintro i ⟨rs, r⟩ ⟨h1, h2⟩
    dsimp only at h1 h2
    subst h1
    exact ⟨rfl, .inl rfl, S.none_left h2⟩
  poll_empty h h0 := empty_read A h h0
  start := by
    rintro i f rest ⟨rs, r⟩ ⟨h1, h2⟩ hok
    dsimp only at h1 h2
    subst h1
    have hl := length_pkg A l i hok.2.1
    exact .inl ⟨[], pkg A l i f, hok.1, hok.2.1, rfl, rfl, .inl ⟨rfl, rfl⟩, rfl, (by intro h; rw [h] at hl; simp at hl), S.start h2 (by rw [hl]; exact hok.2.2)⟩
  cut := by
    rintro i f b z ⟨rs, r⟩ ⟨h1, h2⟩ hb hz hok
    dsimp only at h1 h2
    subst h1
    have hl := length_pkg A l i hok.2.1
    exact .inl ⟨[], pkg A l i f, hok.1, hok.2.1, rfl, rfl, .inl ⟨rfl, rfl⟩, rfl, (by intro h; rw [h] at hl; simp at hl), S.cut h2 hb hz (by rw [hl]; exact hok.2.2)⟩
  finish := by
    rintro i rest ⟨rs, r⟩ (⟨acc, p', h0, -⟩ | ⟨rest', h1, h2, h3⟩)
    · simp at h0
    · cases h1
      exact ⟨h2, h3⟩
  unfinished := by
    rintro i r (⟨acc, p', h0, -⟩ | ⟨rest', h1, -⟩)
    · simp at h0
    · cases h1
  idle_base h := S.idle_base h.2
  base_set r sc := S.base_set r.2 sc
  idle_set sc h hc := ⟨h.1, S.idle_set sc h.2 hc⟩
  poll h h0 hle := got_read h h0 hle

/-! ### Reading an event -/

section
variable {ρ : Type} {R : ReadT ρ} {closed : Bool}

/-- A read of bytes that are there. -/
theorem Receives.drive (S : Receives R closed) (int : Bool) {i : Nat} {rest : Bytes} {n : Nat} : ∀ (fuel : Nat) {got cur : Bytes} {r : ρ}, n - got.length ≤ cur.length → size R r < fuel →
    S.at_ i cur (some rest) r →
    ∃ r', Layers.drive R int n fuel got r = .ok (got ++ cur.take (n - got.length), r') ∧ S.at_ i (cur.drop (n - got.length)) (some rest) r' := by
  intro fuel
  induction fuel with
  | zero => intro got cur r _ h; omega
  | succ fuel ih =>
    intro got cur r hle hf h
    have hw := S.fill int (n - got.length) (n := n) (got := got) rfl hle h
    unfold Layers.drive
    generalize Layers.fill R int n got r = x at hw
    cases hw with
    | fail h1 => cases h1
    | done h1 h2 => exact ⟨_, rfl, h1⟩
    | @pending y cur' r' h1 h2 h3 h4 =>
      have hsz : size R r' < size R r := by
        rcases h4 with h4 | ⟨h4, -⟩
        · exact h4
        · cases h4
      have hl := congrArg List.length h1
      simp only [List.length_append] at hl
      have e : n - (got ++ y).length = n - got.length - y.length := by rw [List.length_append]; omega
      obtain ⟨r'', g1, g2⟩ := ih (got := got ++ y) (cur := cur') (r := r') (by omega) (by omega) h3
      refine ⟨r'', ?_, ?_⟩
      · dsimp only
        rw [g1, h1, e, List.take_append, List.take_of_length_le (by omega : y.length ≤ n - got.length), List.append_assoc]
      · rw [h1, List.drop_append, List.drop_of_length_le (by omega : y.length ≤ n - got.length), List.nil_append, ← e]
        exact g2

/-- An event whose frame is next is read, whatever follows. -/
theorem Receives.read_event (S : Receives R closed) {checks : Bool} {i : Nat} {e : Event} {frame rest : Bytes} {r : ρ} (hok : S.ok frame.length)
    (hf : Event.fromBytes checks frame = .ok (e, [])) (h : S.idle i r (S.wrap i frame ++ rest)) :
    ∃ r', Event.fromAsyncRead (source R) checks r = .ok (e, r') ∧ S.idle (i + 1) r' rest := by
  have key : ∀ (int : Bool) n (s : ρ) (t x t' : Bytes), S.at_ i t (some rest) s → readExact n t = .ok (x, t') →
      ∃ s', Layers.drive R int n ((R.base s).chunks.length + 1) [] s = .ok (x, s') ∧ S.at_ i t' (some rest) s' := by
    intro int n s t x t' hs hr
    unfold readExact at hr
    split at hr
    · rename_i hn
      simp only [Outcome.ok.injEq, Prod.mk.injEq] at hr
      obtain ⟨rfl, rfl⟩ := hr
      have := S.drive int (n := n) (fuel := size R s + 1) (got := []) (by simpa using hn) (Nat.lt_succ_self _) hs
      simpa using this
    · cases hr
  obtain ⟨r', h1, h2⟩ := fromAsyncRead_rel (S := source R) (T := byteSource) (fun s t => S.at_ i t (some rest) s)
    (fun n s t x t' _ hr h => key true n s t x t' hr h) (fun n s t x t' hr h => key false n s t x t' hr h) (S.start h hok) hf
  exact ⟨r', h1, S.finish h2⟩

/-- On an encrypted layer, nothing of a package that is cut off is read. -/
theorem Receives.drive_cut (S : Receives R closed) (A : Aead) (l : Layer) (int : Bool) {i n : Nat} {cur : Bytes} (h0 : 0 < n) :
    ∀ (fuel : Nat) {s : ReadStream × ρ}, size R s.2 < fuel → LBefore S A l i cur none s →
    Layers.drive (encryptedR R A) int n fuel [] s = if closed then .err (.io .unexpectedEof) else .hang := by
  have open_ : ∀ (fuel : Nat) (s : ReadStream × ρ), closed = false ∨ size R s.2 < fuel → LBefore S A l i cur none s →
      Layers.drive (encryptedR R A) int n fuel [] s = if closed then .err (.io .unexpectedEof) else .hang := by
    intro fuel
    induction fuel with
    | zero =>
      intro s h _
      rcases h with h | h
      · subst h; rfl
      · omega
    | succ fuel ih =>
      rintro ⟨rs, r⟩ hf ⟨acc, p', hpos, hsz, h1, h2, h3, h4, h5, h6⟩
      obtain ⟨dec, rem, fut⟩ := rs
      dsimp only at h1 h2 h3 h6 hf
      subst h1 h2
      have hw := S.pollPackage h4 (decrypt_pkg (A := A) (l := l) (i := i) hsz).1 h6
      have hpoll : (encryptedR R A).pollRead ({ dec := decAt l i, fut := fut }, r) n = pollFutRead R A { dec := decAt l i, fut := some (.reading acc) } r n := by
        simp only [encryptedR]
        rcases h3 with ⟨rfl, rfl⟩ | rfl
        · simp [pollRead, h0]
        · simp [pollRead]
      unfold Layers.drive Layers.fill
      rw [if_neg (by simp; omega)]
      simp only [List.length_nil, Nat.sub_zero]
      rw [hpoll]
      unfold pollFutRead
      dsimp only
      generalize Layers.pollPackage R acc r = x at hw
      cases hw with
      | done g1 => cases g1
      | fail g1 g2 => subst g2; rfl
      | @pending acc' p'' r' g1 g2 g3 g4 =>
        have e : (if int = true then ([] : Bytes) else [] ++ []) = [] := by cases int <;> rfl
        dsimp only
        rw [e]
        refine ih _ ?_ ⟨acc', p'', hpos, hsz, rfl, rfl, .inr rfl, g1, g2, g3⟩
        rcases g4 with g4 | ⟨-, g4, -⟩
        · rcases hf with hf | hf
          · exact .inl hf
          · exact .inr (by dsimp only; omega)
        · exact .inl g4
  intro fuel s hf h
  exact open_ fuel s (.inr hf) h

theorem Receives.read_cut (S : Receives R closed) (A : Aead) (l : Layer) {checks : Bool} {i : Nat} {f b z : Bytes} {s : ReadStream × ρ} (hok : (S.layer A l).ok f.length)
    (hb : b ++ z = (S.layer A l).wrap i f) (hz : z ≠ []) (h : (S.layer A l).idle i s b) :
    Event.fromAsyncRead (source (encryptedR R A)) checks s = if closed then .err (.io .unexpectedEof) else .hang := by
  have hb' : LBefore S A l i f none s := by
    rcases (S.layer A l).cut h hb hz hok with h | ⟨rest, h, -⟩
    · exact h
    · cases h
  have : (source (encryptedR R A)).readInt 8 s = if closed then .err (.io .unexpectedEof) else .hang :=
    S.drive_cut A l true (by omega) _ (Nat.lt_succ_self _) hb'
  unfold Event.fromAsyncRead
  rw [this]
  cases closed <;> simp

/-- Nothing is read if nothing is there. -/
theorem Receives.read_nothing (S : Receives R closed) {checks : Bool} {i : Nat} {r : ρ} (h : S.idle i r []) :
    Event.fromAsyncRead (source R) checks r = if closed then .err (.io .unexpectedEof) else .hang := by
  have key : ∀ (fuel : Nat) (r : ρ), closed = false ∨ size R r < fuel → S.empty r →
      Layers.drive R true 8 fuel [] r = if closed then .err (.io .unexpectedEof) else .hang := by
    intro fuel
    induction fuel with
    | zero =>
      intro r h _
      rcases h with h | h
      · subst h; rfl
      · omega
    | succ fuel ih =>
      intro r hf he
      have hp := S.poll_empty he (show 0 < 8 by omega)
      unfold Layers.drive Layers.fill
      rw [if_neg (by simp)]
      simp only [List.length_nil, Nat.sub_zero]
      generalize R.pollRead r 8 = x at hp
      cases hp with
      | eof g => subst g; rfl
      | error g => subst g; rfl
      | pending g1 g2 =>
        refine ih _ ?_ g1
        rcases g2 with g2 | ⟨-, g2, -⟩
        · rcases hf with hf | hf
          · exact .inl hf
          · exact .inr (by omega)
        · exact .inl g2
  have : (source R).readInt 8 r = if closed then .err (.io .unexpectedEof) else .hang := key _ r (.inr (Nat.lt_succ_self _)) (S.none_left h)
  unfold Event.fromAsyncRead
  rw [this]
  cases closed <;> simp

end

end Bromine.Layers
