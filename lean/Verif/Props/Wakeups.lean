import Verif.Lemmas.Wakeups
import Verif.Props.Layers
import Verif.Model.Handshake
/-
C94: wake-ups, and reads of any size, on connections with encrypted layers.
-/
namespace Bromine.Props
open Bromine Bromine.Spec Bromine.CryptIO Bromine.Layers

/-- **C94, writing.** A poll to write or to flush any number of encrypted layers that is pending has registered its task at the socket, in whatever state the layers are and whatever the socket answers. -/
theorem C94_writes_woken (A : Aead) (n : Nat) (w w' : WState n) (b : Bool) :
    (∀ buf, (layersW A n).pollWrite w buf = (.pending b, w') → b = true) ∧ ((layersW A n).pollFlush w = (.pending b, w') → b = true) :=
  ⟨fun buf h => (wokenW A n).write w buf b w' h, fun h => (wokenW A n).flush w b w' h⟩

/-- C94, writing: so a pending emit is woken, wherever it is. -/
theorem C94_emits_woken (A : Aead) (n : Nat) (w w' : WState n) (st st' : Stage) (b : Bool) (h : pollEmit (layersW A n) w st = (.pending b, st', w')) : b = true := by
  have hfl : ∀ {t}, pollFlushing (layersW A n) t = (.pending b, st', w') → b = true := by
    intro t h
    unfold pollFlushing at h
    generalize hp : (layersW A n).pollFlush t = x at h
    obtain ⟨p, t'⟩ := x
    simp only [Prod.mk.injEq] at h
    obtain ⟨rfl, -, rfl⟩ := h
    exact (wokenW A n).flush _ _ _ hp
  cases st with
  | flushing => exact hfl h
  | writing rem =>
    simp only [pollEmit] at h
    split at h
    · exact hfl h
    · simp at h
    · rename_i hw
      simp only [Prod.mk.injEq, Poll.pending.injEq] at h
      rw [← h.1]
      exact (wokenW A n).writeAll _ _ _ (Nat.le_refl _) hw
    · simp at h

/-- **C94, reading.** Exactly when a pending poll to read misses its wake-up: it is woken if every layer is in the middle of a package, and it is not woken if some layer has just emptied a package, without having filled the
buffer it was given, whatever there is still to be read. -/
theorem C94_read_woken_iff (A : Aead) (n : Nat) (s s' : RState n) (want : Nat) (b : Bool) (bs : Bytes) (h : (layersR A n).pollRead s want = (.pending b, bs, s')) :
    (b = true ↔ AllReading n s') ∧ (b = false ↔ Stalled n s') :=
  pending_layers A n h

/-- A read of bytes that are left. -/
theorem drive_left {ρ : Type} {R : ReadT ρ} {A : Aead} {dec : Decryptor} {rem : Bytes} {r : ρ} {n fuel : Nat} (hn : n ≤ rem.length) :
    Layers.drive (encryptedR R A) false n (fuel + 1) [] ({ dec := dec, remaining := rem }, r) = .ok (rem.take n, { dec := dec, remaining := rem.drop n }, r) := by
  have hl : (rem.take n).length = n := by rw [List.length_take]; omega
  have hf : Layers.fill (encryptedR R A) false n [] ({ dec := dec, remaining := rem }, r) = .done (rem.take n) ({ dec := dec, remaining := rem.drop n }, r) := by
    unfold Layers.fill
    cases n with
    | zero => simp
    | succ n =>
      rw [if_neg (by simp)]
      have hp : (encryptedR R A).pollRead ({ dec := dec, remaining := rem }, r) (n + 1 - ([] : Bytes).length) = (.ready (.ok ()), rem.take (n + 1), { dec := dec, remaining := rem.drop (n + 1) }, r) := by
        simp [encryptedR, Layers.pollRead, List.length_take]
        omega
      rw [hp]
      cases hx : rem.take (n + 1) with
      | nil => rw [hx] at hl; simp at hl
      | cons b bs =>
        dsimp only
        unfold Layers.fill
        rw [if_pos (by rw [List.nil_append, ← hx, hl]; omega)]
        rfl
  unfold Layers.drive
  rw [hf]

theorem reads_from {A : Aead} {closed : Bool} {l : Layer} {ls : List Layer} : ∀ (ns : List Nat) (i : Nat) (rem : Bytes) (ms : List Bytes) (bytes : Bytes) (r : RState ls.length),
    (∀ m ∈ ms, m.length + 20 * ls.length + 16 < 2 ^ 32) → NestedAll A (l :: ls) i ms bytes → (receives A closed ls).idle i r bytes →
    readResults (source (encryptedR (layersR A ls.length) A)) ({ dec := decAt l i, remaining := rem }, r) ns = readsGive closed rem ms ns := by
  intro ns
  induction ns with
  | nil => intro i rem ms bytes r _ _ _; cases ms <;> rfl
  | cons n ns ih =>
    intro i rem ms bytes r hm hb hi
    unfold readResults readsGive
    by_cases hn : n ≤ rem.length
    · rw [if_pos hn, show (source (encryptedR (layersR A ls.length) A)).readExact n ({ dec := decAt l i, remaining := rem }, r) =
        .ok (rem.take n, ({ dec := decAt l i, remaining := rem.drop n }, r)) from drive_left hn]
      dsimp only
      rw [ih i (rem.drop n) ms bytes r hm hb hi]
    · rw [if_neg hn]
      cases ms with
      | nil =>
        rw [show bytes = [] from hb] at hi
        rw [show (source (encryptedR (layersR A ls.length) A)).readExact n ({ dec := decAt l i, remaining := rem }, r) = if closed then .err (.io .unexpectedEof) else .hang from
          reads_nothing (S := receives A closed ls) _ (.inl (Nat.lt_succ_self _)) (by simp; omega) (.inl rfl) ((receives A closed ls).none_left hi)]
        cases closed <;> rfl
      | cons m ms =>
        obtain ⟨b, rest, ⟨p, hp, hq⟩, rfl, hrest⟩ := hb
        have hml := hm m (by simp)
        have hok : okL ls (m.length + 20) := by
          cases ls with
          | nil => show 0 < m.length + 20; omega
          | cons l' ls => exact okL_of l' ls (by omega) (by simp only [List.length_cons] at hml; omega)
        have e1 := package_unique hp (package_pkg A l i (by omega : m.length + 16 < 2 ^ 32))
        subst e1
        have hpl := length_pkg A l i (by omega : m.length + 16 < 2 ^ 32)
        have e2 := nested_unique hq (nested_wrapL A i ls (by rw [hpl]; exact hok))
        subst e2
        rw [← receives_wrap A closed] at hi
        have hat := (receives A closed ls).start hi (receives_ok A closed ls (by rw [hpl]; exact hok))
        have hdr := drive_asking (S := receives A closed ls) (A := A) (l := l) (i := i) (m := m) (rest := rest) (n := n) (by omega) (size (layersR A ls.length) r + 1) (got := []) (rem := rem)
          (s := ({ dec := decAt l i, remaining := rem }, r)) (Nat.lt_succ_self _) (by simp; omega) ⟨[], _, rfl, hat, .inl ⟨rfl, rfl⟩⟩
        simp only [List.length_nil, Nat.zero_add, Nat.sub_zero, List.nil_append] at hdr
        dsimp only
        by_cases hle : n ≤ rem.length + m.length
        · rw [if_pos hle] at hdr
          obtain ⟨r', h1, h2⟩ := hdr
          rw [if_pos hle, show (source (encryptedR (layersR A ls.length) A)).readExact n ({ dec := decAt l i, remaining := rem }, r) = _ from h1]
          dsimp only
          rw [ih (i + 1) _ ms rest r' (fun m' h => hm m' (by simp [h])) hrest h2]
        · rw [if_neg hle] at hdr
          rw [if_neg hle, show (source (encryptedR (layersR A ls.length) A)).readExact n ({ dec := decAt l i, remaining := rem }, r) = _ from hdr]

/-- **C94, reads of any size.** The packages with the plaintexts `ms` are what has come over a connection with any number of layers, however the socket cuts them and however often reads have to wait. Then `read_exact` calls of
the sizes `ns`, one after the other, give exactly what `readsGive` says: as long as a read needs no more than what is left and the next package, it returns the next bytes; the first that needs more never returns, although all
bytes are there. -/
theorem C94_reads (A : Aead) (l : Layer) (ls : List Layer) (ms : List Bytes) (hm : ∀ m ∈ ms, m.length + 20 * ls.length + 16 < 2 ^ 32) (sc : Script) (hb : NestedAll A (l :: ls) 0 ms sc.bytes) (ns : List Nat) :
    readResults (source (layersR A (l :: ls).length)) (startR sc (l :: ls)) ns = readsGive sc.closed [] ms ns :=
  reads_from ns 0 [] ms sc.bytes (startR sc ls) hm hb (receives_start A sc ls)

/-- **C94, the loss** (a user would expect that a read returns when its bytes are there): a read that wants more than the first package, and more packages, with everything wanted, have come. -/
theorem C94_violated (A : Aead) (l : Layer) (ls : List Layer) (ms : List Bytes) (hm : ∀ m ∈ ms, m.length + 20 * ls.length + 16 < 2 ^ 32) (sc : Script) (hb : NestedAll A (l :: ls) 0 ms sc.bytes)
    (n : Nat) (m : Bytes) (hfirst : ms.head? = some m) (hn : m.length < n) (_ : n ≤ ms.flatten.length) :
    (source (layersR A (l :: ls).length)).readExact n (startR sc (l :: ls)) = .hang := by
  have := C94_reads A l ls ms hm sc hb [n]
  cases ms with
  | nil => cases hfirst
  | cons m' ms =>
    cases hfirst
    simp only [readResults, readsGive, List.length_nil, Nat.zero_add] at this
    rw [if_neg (by omega), if_neg (by omega)] at this
    revert this
    cases (source (layersR A (l :: ls).length)).readExact n (startR sc (l :: ls)) with
    | hang => intro _; rfl
    | ok x => intro h; simp at h
    | err x => intro h; simp at h
    | panic => intro h; simp at h

/-- **C94, torn packages** (a user would expect that layers do not depend on the packages of the layers below them): packages `p` and `q` of an inner layer have come that carry the beginning of a package of the layer around it. If the
length of that package (4 bytes) is not all in `p`, or the package is longer than `p` and `q` together, then no read of the layer around it ever returns, whatever else has come. -/
theorem C94_violated_torn (A : Aead) (l l' : Layer) (ls : List Layer) (p q : Bytes) (hp : p.length + 20 * ls.length + 16 < 2 ^ 32) (hq : q.length + 20 * ls.length + 16 < 2 ^ 32) (bp bq rest : Bytes)
    (h1 : Nested A (l' :: ls) 0 p bp) (h2 : Nested A (l' :: ls) 1 q bq) (sc : Script) (hb : sc.bytes = bp ++ bq ++ rest)
    (ht : p.length < 4 ∨ ∃ len, BigEndian 4 len (p.take 4) ∧ p.length + q.length < 4 + len) (n : Nat) (h0 : 0 < n) :
    (source (layersR A (l :: l' :: ls).length)).readExact n (startR sc (l :: l' :: ls)) = .hang ∧ (source (layersR A (l :: l' :: ls).length)).readInt n (startR sc (l :: l' :: ls)) = .hang := by
  have ok : ∀ {m : Bytes}, m.length + 20 * ls.length + 16 < 2 ^ 32 → okL ls (m.length + 20) := by
    intro m hm
    cases ls with
    | nil => show 0 < m.length + 20; omega
    | cons l' ls => exact okL_of l' ls (by omega) (by simp only [List.length_cons] at hm; omega)
  have wrap : ∀ {i : Nat} {m b : Bytes}, m.length + 20 * ls.length + 16 < 2 ^ 32 → Nested A (l' :: ls) i m b → b = (receives A sc.closed ls).wrap i (pkg A l' i m) := by
    rintro i m b hm ⟨x, g1, g2⟩
    have e1 := package_unique g1 (package_pkg A l' i (by omega : m.length + 16 < 2 ^ 32))
    subst e1
    rw [receives_wrap]
    exact nested_unique g2 (nested_wrapL A i ls (by rw [length_pkg A l' i (by omega)]; exact ok hm))
  have hi := receives_start A sc ls
  rw [show flat sc.chunks = sc.bytes from rfl, hb, wrap hp h1, wrap hq h2, List.append_assoc] at hi
  have hat := (receives A sc.closed ls).start hi (receives_ok A sc.closed ls (by rw [length_pkg A l' 0 (by omega)]; exact ok hp))
  have ht' : p.length < 4 ∨ p.length + q.length < 4 + beVal (p.take 4) := by
    rcases ht with ht | ⟨len, g1, g2⟩
    · exact .inl ht
    · rw [bigEndian_iff] at g1
      exact .inr (by omega)
  have htorn : Torn (receives A sc.closed ls) A l' p q rest ({ dec := decAt l 0 }, { dec := decAt l' 0 }, startR sc ls) :=
    .inl ⟨rfl, .inl rfl, [], _, rfl, hat, .inl ⟨rfl, rfl⟩⟩
  have hok := receives_ok A sc.closed ls (ok hq)
  exact ⟨torn_drive h0 (by omega) (by omega) hok ht' _ htorn, torn_drive h0 (by omega) (by omega) hok ht' _ htorn⟩

/-! ### Examples -/

/-- Two layers. -/
abbrev twoLayers : List Layer := [{ key := [1] }, { key := [2], start := 3 }]

/-- An emit of three bytes over two layers has put 5 bytes on the wire, and is pending. -/
example : ∃ st w', pollEmit (layersW toyAead 2) ((layersW toyAead 2).setBase (startW twoLayers) { answers := [.ready 5] }) (.writing [7, 8, 9]) = (.pending true, st, w') := by
  have h : (match pollEmit (layersW toyAead 2) ((layersW toyAead 2).setBase (startW twoLayers) { answers := [.ready 5] }) (.writing [7, 8, 9]) with | (.pending true, _, _) => true | _ => false) = true := by decide +kernel
  generalize pollEmit (layersW toyAead 2) ((layersW toyAead 2).setBase (startW twoLayers) { answers := [.ready 5] }) (.writing [7, 8, 9]) = x at h ⊢
  obtain ⟨p, st, w'⟩ := x
  split at h
  · rename_i heq; exact ⟨_, _, heq⟩
  · cases h

/-- The bytes of two packages of two layers. -/
abbrev twoPackages : Bytes := wrapL toyAead twoLayers 0 [1, 2] ++ wrapL toyAead twoLayers 1 [3, 4]

/-- They come in chunks of 10 bytes and the rest, between which the socket has nothing. -/
abbrev twoScript : Script := { closed := true, chunks := [.pending] ++ Handshake.toChunks (twoPackages.take 10) ++ [.pending, .pending] ++ Handshake.toChunks (twoPackages.drop 10) }

/-- The hypotheses of `C94_reads` and `C94_violated` are met; reads of 1 and 2 bytes get what they want, a third one meets the end of the stream. A read of 3 bytes never returns. -/
example : NestedAll toyAead twoLayers 0 [[1, 2], [3, 4]] twoScript.bytes ∧
    readResults (source (layersR toyAead 2)) (startR twoScript twoLayers) [1, 2, 2] = [.ok [1], .ok [2, 3], .err (.io .unexpectedEof)] ∧
    readResults (source (layersR toyAead 2)) (startR twoScript twoLayers) [3] = [.hang] := by
  have hb : NestedAll toyAead twoLayers 0 [[1, 2], [3, 4]] twoScript.bytes := by
    rw [show twoScript.bytes = twoPackages by decide +kernel]
    exact ⟨_, _, nested_wrapL toyAead 0 twoLayers (okL_of _ _ (by decide) (by decide)), rfl, _, [], nested_wrapL toyAead 1 twoLayers (okL_of _ _ (by decide) (by decide)), (List.append_nil _).symm, rfl⟩
  refine ⟨hb, ?_, ?_⟩
  · exact C94_reads toyAead _ _ [[1, 2], [3, 4]] (by decide) twoScript hb [1, 2, 2]
  · exact C94_reads toyAead _ _ [[1, 2], [3, 4]] (by decide) twoScript hb [3]

/-- Both cases of `C94_read_woken_iff`: after the first package, and in its middle. -/
example : (∃ bs s', (layersR toyAead 2).pollRead (startR { closed := false, chunks := Handshake.toChunks twoPackages } twoLayers) 3 = (.pending false, bs, s')) ∧
    (∃ bs s', (layersR toyAead 2).pollRead (startR { closed := false, chunks := Handshake.toChunks (twoPackages.take 9) } twoLayers) 3 = (.pending true, bs, s')) := by
  have h1 : (match (layersR toyAead 2).pollRead (startR { closed := false, chunks := Handshake.toChunks twoPackages } twoLayers) 3 with | (.pending false, _, _) => true | _ => false) = true := by decide +kernel
  have h2 : (match (layersR toyAead 2).pollRead (startR { closed := false, chunks := Handshake.toChunks (twoPackages.take 9) } twoLayers) 3 with | (.pending true, _, _) => true | _ => false) = true := by decide +kernel
  constructor
  · generalize (layersR toyAead 2).pollRead (startR { closed := false, chunks := Handshake.toChunks twoPackages } twoLayers) 3 = x at h1 ⊢
    split at h1
    · exact ⟨_, _, rfl⟩
    · cases h1
  · generalize (layersR toyAead 2).pollRead (startR { closed := false, chunks := Handshake.toChunks (twoPackages.take 9) } twoLayers) 3 = x at h2 ⊢
    split at h2
    · exact ⟨_, _, rfl⟩
    · cases h2

/-- The hypotheses of `C94_violated_torn` can be met, in both ways: a complete package of the outer layer, with the plaintext `[1, 2]`, has come in three packages of the inner layer. -/
example : ∃ p q r bp bq br, p ++ q ++ r = pkg toyAead { key := [1] } 0 [1, 2] ∧ p.length < 4 ∧ Nested toyAead [{ key := [2], start := 3 }] 0 p bp ∧ Nested toyAead [{ key := [2], start := 3 }] 1 q bq ∧
    Nested toyAead [{ key := [2], start := 3 }] 2 r br :=
  ⟨(pkg toyAead { key := [1] } 0 [1, 2]).take 3, ((pkg toyAead { key := [1] } 0 [1, 2]).drop 3).take 3, ((pkg toyAead { key := [1] } 0 [1, 2]).drop 3).drop 3, _, _, _, by decide +kernel, by decide +kernel,
    nested_wrapL toyAead 0 [_] (okL_of _ _ (by decide +kernel) (by decide +kernel)), nested_wrapL toyAead 1 [_] (okL_of _ _ (by decide +kernel) (by decide +kernel)),
    nested_wrapL toyAead 2 [_] (okL_of _ _ (by decide +kernel) (by decide +kernel))⟩

example : ∃ p q r bp bq br, p ++ q ++ r = pkg toyAead { key := [1] } 0 [1, 2] ∧ (∃ len, BigEndian 4 len (p.take 4) ∧ p.length + q.length < 4 + len) ∧ Nested toyAead [{ key := [2], start := 3 }] 0 p bp ∧
    Nested toyAead [{ key := [2], start := 3 }] 1 q bq ∧ Nested toyAead [{ key := [2], start := 3 }] 2 r br :=
  ⟨(pkg toyAead { key := [1] } 0 [1, 2]).take 6, ((pkg toyAead { key := [1] } 0 [1, 2]).drop 6).take 3, ((pkg toyAead { key := [1] } 0 [1, 2]).drop 6).drop 3, _, _, _, by decide +kernel,
    ⟨18, (bigEndian_iff).2 (by decide +kernel), by decide +kernel⟩,
    nested_wrapL toyAead 0 [_] (okL_of _ _ (by decide +kernel) (by decide +kernel)), nested_wrapL toyAead 1 [_] (okL_of _ _ (by decide +kernel) (by decide +kernel)),
    nested_wrapL toyAead 2 [_] (okL_of _ _ (by decide +kernel) (by decide +kernel))⟩

end Bromine.Props
