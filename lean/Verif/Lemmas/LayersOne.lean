import Verif.Lemmas.LayersRead
/-
One layer over a socket is the connection of Model/CryptIO.lean.
-/
namespace Bromine.Layers
open Bromine CryptIO

theorem writeAll_socket : ∀ (as : List IoAns) (rem wire : Bytes), writeAll socket { answers := as, wire := wire } rem =
    (match pollWriteAll rem as with
      | (some r, w, rem, as) => (.ready r, rem, { answers := as, wire := wire ++ w })
      | (none, w, rem, as) => (.pending true, rem, { answers := as, wire := wire ++ w })) := by
  intro as
  induction as with
  | nil =>
    intro rem wire
    unfold writeAll
    cases rem with
    | nil => simp [pollWriteAll]
    | cons b bs => simp [pollWriteAll, socket]
  | cons a as ih =>
    intro rem wire
    unfold writeAll
    cases rem with
    | nil => simp [pollWriteAll]
    | cons b bs =>
      cases a with
      | pending => simp [pollWriteAll, socket]
      | fail e => simp [pollWriteAll, socket]
      | ready n =>
        cases n with
        | zero => simp [pollWriteAll, socket]
        | succ n =>
          have hm : min (n + 1) (b :: bs).length = min n bs.length + 1 := by simp only [List.length_cons]; omega
          have hd : (b :: bs).drop (min n bs.length + 1) = (b :: bs).drop (n + 1) := by
            simp only [List.drop_succ_cons]
            by_cases h : n ≤ bs.length
            · rw [Nat.min_eq_left h]
            · rw [Nat.min_eq_right (by omega), List.drop_of_length_le (Nat.le_refl _), List.drop_of_length_le (by omega)]
          simp only [socket, hm, reduceCtorEq, dite_false, hd]
          have := ih ((b :: bs).drop (n + 1)) (wire ++ (b :: bs).take (n + 1))
          simp only [socket] at this
          rw [this]
          simp only [pollWriteAll]
          rcases pollWriteAll ((b :: bs).drop (n + 1)) as with ⟨_ | r, w, rem', as'⟩ <;> simp

theorem pollFutWrite_one (ws : WriteStream) (as : List IoAns) (wire rem : Bytes) (len : Nat) :
    pollFutWrite socket ws { answers := as, wire := wire } rem len =
      ((CryptIO.pollFutWrite ws rem len as).poll, (CryptIO.pollFutWrite ws rem len as).ws, { answers := (CryptIO.pollFutWrite ws rem len as).rest, wire := wire ++ (CryptIO.pollFutWrite ws rem len as).wire }) := by
  unfold pollFutWrite CryptIO.pollFutWrite
  rw [writeAll_socket]
  rcases pollWriteAll rem as with ⟨_ | r, w, rem', as'⟩
  · rfl
  · cases r <;> rfl

theorem pollFutFlush_one (ws : WriteStream) (as : List IoAns) (wire : Bytes) :
    pollFutFlush socket ws { answers := as, wire := wire } =
      ((CryptIO.pollFutFlush ws as).poll, (CryptIO.pollFutFlush ws as).ws, { answers := (CryptIO.pollFutFlush ws as).rest, wire := wire ++ (CryptIO.pollFutFlush ws as).wire }) := by
  unfold pollFutFlush CryptIO.pollFutFlush
  cases as with
  | nil => simp [socket]
  | cons a as => cases a <;> simp [socket]

theorem pollFutFlush_wire (ws : WriteStream) (as : List IoAns) : (CryptIO.pollFutFlush ws as).wire = [] := by
  unfold CryptIO.pollFutFlush
  cases as with
  | nil => rfl
  | cons a as => cases a <;> rfl

theorem pollFlushWrite_one (ws : WriteStream) (as : List IoAns) (wire rem : Bytes) :
    pollFlushWrite socket ws { answers := as, wire := wire } rem =
      ((CryptIO.pollFlushWrite ws rem as).poll, (CryptIO.pollFlushWrite ws rem as).ws, { answers := (CryptIO.pollFlushWrite ws rem as).rest, wire := wire ++ (CryptIO.pollFlushWrite ws rem as).wire }) := by
  unfold pollFlushWrite CryptIO.pollFlushWrite
  rw [writeAll_socket]
  rcases pollWriteAll rem as with ⟨_ | r, w, rem', as'⟩
  · rfl
  · cases r with
    | error e => rfl
    | ok a =>
      dsimp only
      rw [pollFutFlush_one, pollFutFlush_wire, List.append_nil]

theorem pollWrite_one (A : Aead) (ws : WriteStream) (as : List IoAns) (wire buf : Bytes) :
    pollWrite socket A (ws, { answers := as, wire := wire }) buf =
      ((ws.pollWrite A buf as).poll, (ws.pollWrite A buf as).ws, { answers := (ws.pollWrite A buf as).rest, wire := wire ++ (ws.pollWrite A buf as).wire }) := by
  simp only [pollWrite, WriteStream.pollWrite]
  cases ws.futWrite with
  | some rem => exact pollFutWrite_one _ _ _ _ _
  | none =>
    dsimp only
    split
    · split
      · rcases hx : ws.enc.encrypt A (List.take u32Max (ws.buffer ++ buf)) with ⟨e | c, x⟩
        · simp
        · exact pollFutWrite_one _ _ _ _ _
      · simp
    · simp

theorem pollFlush_one (A : Aead) (ws : WriteStream) (as : List IoAns) (wire : Bytes) :
    pollFlush socket A (ws, { answers := as, wire := wire }) =
      ((ws.pollFlush A as).poll, (ws.pollFlush A as).ws, { answers := (ws.pollFlush A as).rest, wire := wire ++ (ws.pollFlush A as).wire }) := by
  simp only [pollFlush, WriteStream.pollFlush]
  rcases ws.futFlush with _ | (rem | _)
  · dsimp only
    split
    · split
      · rcases hx : ws.enc.encrypt A (List.take u32Max ws.buffer) with ⟨e | c, x⟩
        · simp
        · exact pollFlushWrite_one _ _ _ _
      · exact pollFutFlush_one _ _ _
    · simp
  · exact pollFlushWrite_one _ _ _ _
  · exact pollFutFlush_one _ _ _

/-! ### Reading -/

/-- Part of a package. -/
def Begun (acc : Bytes) : Prop := acc.length < 4 ∨ acc.length < 4 + beVal (acc.take 4)

theorem Begun.snoc {acc : Bytes} (h : Begun acc) {b : UInt8} (hc : complete (acc ++ [b]) = false) : Begun (acc ++ [b]) := by
  have hc' : ¬ (4 ≤ (acc ++ [b]).length ∧ (acc ++ [b]).length = 4 + beVal ((acc ++ [b]).take 4)) := by
    rw [← complete_iff, hc]; simp
  by_cases h4 : (acc ++ [b]).length < 4
  · exact .inl h4
  · right
    by_cases h5 : acc.length < 4
    · have : (acc ++ [b]).length = 4 := by simp at h4 ⊢; omega
      rw [this] at hc' ⊢
      omega
    · have ht : (acc ++ [b]).take 4 = acc.take 4 := List.take_append_of_le_length (by omega)
      rcases h with h | h
      · exact absurd h h5
      · rw [ht] at hc' ⊢
        simp only [List.length_append, List.length_singleton] at hc' h4 ⊢
        omega

theorem Begun.not_complete {acc : Bytes} (h : Begun acc) : complete acc = false := by
  cases hc : complete acc with
  | false => rfl
  | true =>
    have := complete_iff.1 hc
    rcases h with h | h <;> omega

theorem pushRest_cons (b : UInt8) (bs : Bytes) (cs : List Chunk) : pushRest (b :: bs) cs = .data b bs :: cs := rfl

theorem fill_byte {int cl : Bool} {n : Nat} {got bs : Bytes} {b : UInt8} {cs : List Chunk} (h : got.length < n) :
    fill socketR int n got { chunks := .data b bs :: cs, closed := cl } = fill socketR int n (got ++ [b]) { chunks := pushRest bs cs, closed := cl } := by
  obtain ⟨k, hk⟩ : ∃ k, n - got.length = k + 1 := ⟨n - got.length - 1, by omega⟩
  have hl : fill socketR int n got { chunks := .data b bs :: cs, closed := cl } =
      fill socketR int n (got ++ b :: bs.take k) { chunks := pushRest (bs.drop k) cs, closed := cl } := by
    conv => lhs; unfold fill
    rw [if_neg (by omega), hk]
    simp [socketR]
  rw [hl]
  cases bs with
  | nil => simp
  | cons b' bs =>
    cases k with
    | zero => simp
    | succ k =>
      conv => rhs; unfold fill
      have : n - (got ++ [b]).length = k + 1 := by simp; omega
      rw [if_neg (by omega), this]
      simp [socketR, pushRest]

theorem pollPackage_byte {cl : Bool} {acc bs : Bytes} {b : UInt8} {cs : List Chunk} (h : Begun acc) :
    pollPackage socketR acc { chunks := .data b bs :: cs, closed := cl } =
      if complete (acc ++ [b]) then .done (acc ++ [b]) { chunks := pushRest bs cs, closed := cl } else pollPackage socketR (acc ++ [b]) { chunks := pushRest bs cs, closed := cl } := by
  have hbody : 4 ≤ (acc ++ [b]).length → fill socketR false (4 + beVal ((acc ++ [b]).take 4)) (acc ++ [b]) { chunks := pushRest bs cs, closed := cl } =
      if complete (acc ++ [b]) then .done (acc ++ [b]) { chunks := pushRest bs cs, closed := cl } else pollPackage socketR (acc ++ [b]) { chunks := pushRest bs cs, closed := cl } := by
    intro h4
    cases hc : complete (acc ++ [b]) with
    | true =>
      have := (complete_iff.1 hc).2
      unfold fill
      rw [if_pos (by omega)]
      rfl
    | false =>
      simp only [Bool.false_eq_true, if_false]
      conv => rhs; unfold pollPackage
      rw [if_neg (by omega)]
  by_cases h4 : acc.length < 4
  · conv => lhs; unfold pollPackage
    rw [if_pos h4, fill_byte (by omega)]
    by_cases h5 : (acc ++ [b]).length < 4
    · have hc : complete (acc ++ [b]) = false := Begun.not_complete (.inl h5)
      rw [hc]
      simp only [Bool.false_eq_true, if_false]
      conv => rhs; unfold pollPackage
      rw [if_pos h5]
    · have : fill socketR true 4 (acc ++ [b]) { chunks := pushRest bs cs, closed := cl } = .done (acc ++ [b]) { chunks := pushRest bs cs, closed := cl } := by
        unfold fill
        rw [if_pos (by omega)]
      rw [this]
      exact hbody (by omega)
  · conv => lhs; unfold pollPackage
    have hb : acc.length < 4 + beVal (acc.take 4) := by rcases h with h | h <;> omega
    rw [if_neg h4, fill_byte hb]
    have ht : (acc ++ [b]).take 4 = acc.take 4 := List.take_append_of_le_length (by omega)
    rw [← ht]
    exact hbody (by simp; omega)

theorem pollPackage_chunk {cl : Bool} {cs : List Chunk} : ∀ (bs acc : Bytes) (b : UInt8), Begun acc →
    pollPackage socketR acc { chunks := .data b bs :: cs, closed := cl } =
      (if complete (feed acc (b :: bs)).1 then .done (feed acc (b :: bs)).1 { chunks := pushRest (feed acc (b :: bs)).2 cs, closed := cl }
       else pollPackage socketR (feed acc (b :: bs)).1 { chunks := cs, closed := cl }) ∧ (complete (feed acc (b :: bs)).1 = false → Begun (feed acc (b :: bs)).1) := by
  intro bs
  induction bs with
  | nil =>
    intro acc b h
    have hf : feed acc [b] = (acc ++ [b], []) := by simp [feed, h.not_complete]
    rw [hf]
    exact ⟨pollPackage_byte h, fun hc => h.snoc hc⟩
  | cons b' bs ih =>
    intro acc b h
    cases hc : complete (acc ++ [b]) with
    | true =>
      have hf : feed acc (b :: b' :: bs) = (acc ++ [b], b' :: bs) := by simp [feed, h.not_complete, hc]
      rw [hf]
      refine ⟨?_, by rw [hc]; simp⟩
      rw [pollPackage_byte h, hc]
      rfl
    | false =>
      have hf : feed acc (b :: b' :: bs) = feed (acc ++ [b]) (b' :: bs) := by
        conv => lhs; unfold feed
        simp [h.not_complete]
      rw [hf, pollPackage_byte h, hc]
      exact ih (acc ++ [b]) b' (h.snoc hc)

theorem pollPackage_one {cl : Bool} : ∀ (cs : List Chunk) (acc : Bytes), Begun acc →
    (∃ acc' cs', CryptIO.pollPackage cl acc cs = (.pending acc', cs') ∧ pollPackage socketR acc { chunks := cs, closed := cl } = .pending true acc' { chunks := cs', closed := cl } ∧ Begun acc') ∨
    (∃ p cs', CryptIO.pollPackage cl acc cs = (.done (p.drop 4), cs') ∧ pollPackage socketR acc { chunks := cs, closed := cl } = .done p { chunks := cs', closed := cl }) ∨
    (∃ e cs', CryptIO.pollPackage cl acc cs = (.err e, cs') ∧ pollPackage socketR acc { chunks := cs, closed := cl } = .fail e { chunks := cs', closed := cl }) := by
  intro cs
  induction cs with
  | nil =>
    intro acc h
    have hp : ∀ n int, acc.length < n → fill socketR int n acc { chunks := [], closed := cl } = if cl then .fail .unexpectedEof { chunks := [], closed := cl } else .pending true acc { chunks := [], closed := cl } := by
      intro n int hn
      unfold fill
      rw [if_neg (by omega)]
      cases cl <;> cases int <;> simp [socketR]
    have hp' : pollPackage socketR acc { chunks := [], closed := cl } = if cl then .fail .unexpectedEof { chunks := [], closed := cl } else .pending true acc { chunks := [], closed := cl } := by
      unfold pollPackage
      by_cases h4 : acc.length < 4
      · rw [if_pos h4, hp 4 true h4]
        cases cl <;> rfl
      · rw [if_neg h4]
        exact hp _ _ (by rcases h with h | h <;> omega)
    cases cl with
    | true => exact .inr (.inr ⟨_, _, by simp [CryptIO.pollPackage], hp'⟩)
    | false => exact .inl ⟨_, _, by simp [CryptIO.pollPackage], hp', h⟩
  | cons c cs ih =>
    intro acc h
    cases c with
    | pending =>
      have hp : ∀ n int, acc.length < n → fill socketR int n acc { chunks := .pending :: cs, closed := cl } = .pending true acc { chunks := cs, closed := cl } := by
        intro n int hn
        unfold fill
        rw [if_neg (by omega)]
        cases int <;> simp [socketR]
      refine .inl ⟨acc, cs, by simp [CryptIO.pollPackage], ?_, h⟩
      unfold pollPackage
      by_cases h4 : acc.length < 4
      · rw [if_pos h4, hp 4 true h4]
      · rw [if_neg h4]
        exact hp _ _ (by rcases h with h | h <;> omega)
    | data b bs =>
      obtain ⟨h1, h2⟩ := pollPackage_chunk (cl := cl) (cs := cs) bs acc b h
      rw [h1]
      simp only [CryptIO.pollPackage]
      cases hc : complete (feed acc (b :: bs)).1 with
      | true => exact .inr (.inl ⟨_, _, rfl, rfl⟩)
      | false =>
        simp only [Bool.false_eq_true, if_false]
        exact ih _ (h2 hc)

/-- The package that is being read, if there is one, is not complete. -/
def ReadOk (rs : ReadStream) : Prop := ∀ acc, rs.fut = some (.reading acc) → Begun acc

theorem pollFutRead_one (A : Aead) (rs : ReadStream) (sc : Script) (want : Nat) (h : ReadOk rs) :
    pollFutRead socketR A rs sc want = ((CryptIO.pollFutRead A sc.closed rs want sc.chunks).poll, (CryptIO.pollFutRead A sc.closed rs want sc.chunks).filled,
      (CryptIO.pollFutRead A sc.closed rs want sc.chunks).rs, { sc with chunks := (CryptIO.pollFutRead A sc.closed rs want sc.chunks).chunks }) ∧
    ReadOk (CryptIO.pollFutRead A sc.closed rs want sc.chunks).rs := by
  obtain ⟨cs, cl⟩ := sc
  unfold pollFutRead CryptIO.pollFutRead
  rcases hf : rs.fut with _ | (acc | _)
  · exact ⟨rfl, by intro acc ha; dsimp only at ha; rw [hf] at ha; cases ha⟩
  · dsimp only
    rcases pollPackage_one (cl := cl) cs acc (h acc hf) with ⟨acc', cs', h1, h2, h3⟩ | ⟨p, cs', h1, h2⟩ | ⟨e, cs', h1, h2⟩
    · rw [h1, h2]
      exact ⟨rfl, by intro a ha; cases ha; exact h3⟩
    · rw [h1, h2]
      dsimp only
      rcases rs.dec.decrypt A (p.drop 4) with ⟨e | q, x⟩
      · exact ⟨rfl, by intro a ha; cases ha⟩
      · exact ⟨rfl, by intro a ha; cases ha⟩
    · rw [h1, h2]
      exact ⟨rfl, by intro a ha; cases ha⟩
  · exact ⟨rfl, by intro acc ha; dsimp only at ha; rw [hf] at ha; cases ha⟩

theorem begun_nil : Begun [] := .inl (by simp)

theorem pollRead_one (A : Aead) (rs : ReadStream) (sc : Script) (want : Nat) (h : ReadOk rs) :
    pollRead socketR A (rs, sc) want = ((rs.pollRead A sc.closed want sc.chunks).poll, (rs.pollRead A sc.closed want sc.chunks).filled,
      (rs.pollRead A sc.closed want sc.chunks).rs, { sc with chunks := (rs.pollRead A sc.closed want sc.chunks).chunks }) ∧
    ReadOk (rs.pollRead A sc.closed want sc.chunks).rs := by
  simp only [pollRead, ReadStream.pollRead]
  rcases hf : rs.fut with _ | f
  · dsimp only
    split
    · have := pollFutRead_one A { rs with remaining := rs.remaining.drop want, fut := some (.reading []) } sc (want - (rs.remaining.take want).length)
        (by intro acc ha; cases ha; exact begun_nil)
      rw [this.1]
      exact ⟨rfl, this.2⟩
    · refine ⟨rfl, ?_⟩
      intro acc ha
      dsimp only at ha
      cases ha
  · exact pollFutRead_one A rs sc want h

/-! ### Driven reads -/

/-- What a poll to read can lead to: pending with a waker uses up an answer of the socket, or there is none left; a poll that is ready has filled the buffer. -/
theorem pollFutRead_progress (A : Aead) (cl : Bool) (rs : ReadStream) (want : Nat) (cs : List Chunk) :
    ((CryptIO.pollFutRead A cl rs want cs).poll = .pending true →
      (CryptIO.pollFutRead A cl rs want cs).filled = [] ∧ ((CryptIO.pollFutRead A cl rs want cs).chunks.length < cs.length ∨
        (cl = false ∧ (CryptIO.pollFutRead A cl rs want cs).chunks = [] ∧ ∃ acc, (CryptIO.pollFutRead A cl rs want cs).rs.fut = some (.reading acc)))) ∧
    (∀ u, (CryptIO.pollFutRead A cl rs want cs).poll = .ready (.ok u) → (CryptIO.pollFutRead A cl rs want cs).filled.length = want) := by
  have hpk : ∀ (cs : List Chunk) (acc acc' : Bytes) (cs' : List Chunk), CryptIO.pollPackage cl acc cs = (.pending acc', cs') → cs'.length < cs.length ∨ (cl = false ∧ cs' = []) := by
    intro cs
    induction cs with
    | nil =>
      intro acc acc' cs' h
      cases cl with
      | true => simp [CryptIO.pollPackage] at h
      | false =>
        simp only [CryptIO.pollPackage, Bool.false_eq_true, if_false, Prod.mk.injEq] at h
        exact .inr ⟨rfl, h.2.symm⟩
    | cons c cs ih =>
      intro acc acc' cs' h
      cases c with
      | pending =>
        simp only [CryptIO.pollPackage, Prod.mk.injEq] at h
        exact .inl (by rw [← h.2]; simp)
      | data b bs =>
        simp only [CryptIO.pollPackage] at h
        split at h
        · cases h
        · rcases ih _ _ _ h with g | g
          · exact .inl (by simp; omega)
          · exact .inr g
  unfold CryptIO.pollFutRead
  rcases hf : rs.fut with _ | (acc | _)
  · exact ⟨(fun h => by cases h), (fun u h => by cases h)⟩
  · dsimp only
    rcases hp : CryptIO.pollPackage cl acc cs with ⟨acc' | c | e, cs'⟩
    · refine ⟨fun _ => ⟨rfl, ?_⟩, (fun u h => by cases h)⟩
      rcases hpk _ _ _ _ hp with g | g
      · exact .inl g
      · exact .inr ⟨g.1, g.2, _, rfl⟩
    · dsimp only
      rcases rs.dec.decrypt A c with ⟨e | q, x⟩
      · exact ⟨(fun h => by cases h), (fun u h => by cases h)⟩
      · dsimp only
        constructor
        · intro h
          split at h <;> cases h
        · intro u h
          split at h
          · rw [List.length_take]; omega
          · cases h
    · exact ⟨(fun h => by cases h), (fun u h => by cases h)⟩
  · exact ⟨(fun h => by cases h), (fun u h => by cases h)⟩

theorem pollRead_progress (A : Aead) (cl : Bool) (rs : ReadStream) (want : Nat) (cs : List Chunk) :
    ((rs.pollRead A cl want cs).poll = .pending true → 0 < want →
      (rs.pollRead A cl want cs).filled.length < want ∧ ((rs.pollRead A cl want cs).chunks.length < cs.length ∨ (cl = false ∧ (rs.pollRead A cl want cs).chunks = [] ∧ ∃ acc, (rs.pollRead A cl want cs).rs.fut = some (.reading acc)))) ∧
    (∀ u, (rs.pollRead A cl want cs).poll = .ready (.ok u) → (rs.pollRead A cl want cs).filled.length = want) := by
  unfold ReadStream.pollRead
  rcases hf : rs.fut with _ | f
  · dsimp only
    split
    · next hlt =>
      have := pollFutRead_progress A cl { rs with remaining := rs.remaining.drop want, fut := some (.reading []) } (want - (rs.remaining.take want).length) cs
      refine ⟨fun h _ => ⟨?_, (this.1 h).2⟩, fun u h => ?_⟩
      · dsimp only
        rw [(this.1 h).1]
        simpa using hlt
      dsimp only
      rw [List.length_append, this.2 u h]
      omega
    · next hge =>
      refine ⟨(fun h => by cases h), fun u _ => ?_⟩
      rw [List.length_take] at hge ⊢
      omega
  · have := pollFutRead_progress A cl rs want cs
    exact ⟨fun h hw => ⟨by rw [(this.1 h).1]; exact hw, (this.1 h).2⟩, this.2⟩

/-- The result of a read from one layer, in the terms of the layers. -/
def asLayer (x : Bytes × Reader) : Bytes × ReadStream × Script := (x.1, (x.2.rs, x.2.script))

theorem drive_succ {ρ : Type} (R : ReadT ρ) (int : Bool) (n fuel : Nat) (got : Bytes) (r : ρ) : drive R int n (fuel + 1) got r =
    (match fill R int n got r with
      | .done got r => .ok (got, r)
      | .pending true got r => drive R int n fuel got r
      | .pending false _ _ => .hang
      | .fail e _ => .err (.io e)
      | .panic _ => .panic) := rfl

theorem drive_nothing (A : Aead) (int : Bool) : ∀ (fuel want : Nat) (got : Bytes) (rs : ReadStream) (acc : Bytes), rs.fut = some (.reading acc) → 0 < want →
    CryptIO.drive A int fuel want got { rs := rs, script := { chunks := [], closed := false } } = .hang := by
  intro fuel
  induction fuel with
  | zero =>
    intro want got rs acc hf hw
    obtain ⟨k, rfl⟩ : ∃ k, want = k + 1 := ⟨want - 1, by omega⟩
    rfl
  | succ fuel ih =>
    intro want got rs acc hf hw
    obtain ⟨k, rfl⟩ : ∃ k, want = k + 1 := ⟨want - 1, by omega⟩
    have hr : rs.pollRead A false (k + 1) [] = { poll := .pending true, rs := { rs with fut := some (.reading acc) }, chunks := [] } := by
      simp [ReadStream.pollRead, hf, CryptIO.pollFutRead, CryptIO.pollPackage]
    simp only [CryptIO.drive, hr]
    cases int <;> simp <;> exact ih _ _ _ acc rfl (by omega)

theorem layered_nothing (A : Aead) (int : Bool) : ∀ (fuel n : Nat) (got : Bytes) (rs : ReadStream) (acc : Bytes), rs.fut = some (.reading acc) → Begun acc → got.length < n →
    drive (encryptedR socketR A) int n fuel got (rs, { chunks := [], closed := false }) = .hang := by
  intro fuel
  induction fuel with
  | zero => intro n got rs acc _ _ _; rfl
  | succ fuel ih =>
    intro n got rs acc hf hb hw
    refine Eq.trans (drive_succ _ _ _ _ _ _) ?_
    unfold fill
    rw [if_neg (by omega)]
    have hok : ReadOk rs := by intro a ha; rw [hf] at ha; cases ha; exact hb
    have hr : rs.pollRead A false (n - got.length) [] = { poll := .pending true, rs := { rs with fut := some (.reading acc) }, chunks := [] } := by
      simp [ReadStream.pollRead, hf, CryptIO.pollFutRead, CryptIO.pollPackage]
    rw [show (encryptedR socketR A).pollRead (rs, { chunks := [], closed := false }) (n - got.length) = _ from (pollRead_one A rs { chunks := [], closed := false } _ hok).1]
    dsimp only
    rw [hr]
    cases int <;> simp <;> exact ih _ _ _ acc rfl hb hw

theorem drive_one (A : Aead) (int : Bool) : ∀ (fuel fuel' n : Nat) (got : Bytes) (rs : ReadStream) (sc : Script), ReadOk rs → sc.chunks.length < fuel → sc.chunks.length < fuel' → got.length ≤ n →
    drive (encryptedR socketR A) int n fuel got (rs, sc) = (CryptIO.drive A int fuel' (n - got.length) got { rs := rs, script := sc }).map asLayer := by
  intro fuel
  induction fuel with
  | zero => intro fuel' n got rs sc _ h; omega
  | succ fuel ih =>
    intro fuel' n got rs sc hok h1 h2 hn
    obtain ⟨f', rfl⟩ : ∃ k, fuel' = k + 1 := ⟨fuel' - 1, by omega⟩
    refine Eq.trans (drive_succ _ _ _ _ _ _) ?_
    by_cases hd : n ≤ got.length
    · have : n - got.length = 0 := by omega
      unfold fill
      rw [if_pos hd, this]
      rfl
    · obtain ⟨k, hk⟩ : ∃ k, n - got.length = k + 1 := ⟨n - got.length - 1, by omega⟩
      have hp := pollRead_one A rs sc (k + 1) hok
      have hg := pollRead_progress A sc.closed rs (k + 1) sc.chunks
      unfold fill
      rw [if_neg hd, hk]
      simp only [CryptIO.drive]
      rw [show (encryptedR socketR A).pollRead (rs, sc) (k + 1) = _ from hp.1]
      have hok' := hp.2
      clear hp
      generalize rs.pollRead A sc.closed (k + 1) sc.chunks = res at hg hok' ⊢
      obtain ⟨poll, filled, rs', cs'⟩ := res
      dsimp only at hg hok' ⊢
      rcases poll with (e | u) | w | _
      · rfl
      · have hl := hg.2 u rfl
        cases filled with
        | nil => simp at hl
        | cons b bs =>
          dsimp only
          unfold fill
          rw [if_pos (by rw [List.length_append, hl]; omega)]
          rfl
      · cases w with
        | false => rfl
        | true =>
          dsimp only
          obtain ⟨hfl, hg⟩ := hg.1 rfl (by omega)
          rcases hg with hlt | ⟨hc, he, acc, hf⟩
          · cases int with
            | true =>
              simp only [if_true]
              rw [← hk]
              exact ih f' n got rs' { sc with chunks := cs' } hok' (by dsimp only; omega) (by dsimp only; omega) hn
            | false =>
              simp only [Bool.false_eq_true, if_false]
              have : k + 1 - filled.length = n - (got ++ filled).length := by rw [List.length_append]; omega
              rw [this]
              exact ih f' n (got ++ filled) rs' { sc with chunks := cs' } hok' (by dsimp only; omega) (by dsimp only; omega) (by rw [List.length_append]; omega)
          · subst he
            rw [hc]
            rw [show drive (encryptedR socketR A) int n fuel (if int then got else got ++ filled) (rs', { chunks := [], closed := false }) = .hang from
              layered_nothing A int fuel n _ rs' acc hf (hok' acc hf) (by cases int <;> simp <;> omega)]
            cases int <;> simp only [Bool.false_eq_true, if_true, if_false]
            · rw [drive_nothing A false f' _ _ rs' acc hf (by omega)]; rfl
            · rw [drive_nothing A true f' _ _ rs' acc hf (by omega)]; rfl
      · rfl

theorem drive_readOk (A : Aead) (int : Bool) : ∀ (fuel want : Nat) (got : Bytes) (r : Reader), ReadOk r.rs → ∀ b r', CryptIO.drive A int fuel want got r = .ok (b, r') → ReadOk r'.rs := by
  intro fuel
  induction fuel with
  | zero =>
    intro want got r h b r' hd
    cases want with
    | zero => cases hd; exact h
    | succ k => cases hd
  | succ fuel ih =>
    intro want got r h b r' hd
    cases want with
    | zero => cases hd; exact h
    | succ k =>
      have hok := (pollRead_one A r.rs r.script (k + 1) h).2
      simp only [CryptIO.drive] at hd
      generalize r.rs.pollRead A r.script.closed (k + 1) r.script.chunks = res at hok hd
      obtain ⟨poll, filled, rs', cs'⟩ := res
      dsimp only at hok hd
      rcases poll with (e | u) | w | _
      · cases hd
      · cases hd; exact hok
      · cases w with
        | false => cases hd
        | true =>
          dsimp only at hd
          split at hd <;> exact ih _ _ _ hok b r' hd
      · cases hd

/-- Two sources that behave alike where `I` holds. -/
structure Alike {σ τ : Type} (S : Source σ) (T : Source τ) (I : σ → Prop) (f : σ → τ) : Prop where
  exact : ∀ n s, I s → T.readExact n (f s) = (S.readExact n s).map (fun p => (p.1, f p.2))
  int : ∀ n s, I s → T.readInt n (f s) = (S.readInt n s).map (fun p => (p.1, f p.2))
  keepExact : ∀ n s b s', I s → S.readExact n s = .ok (b, s') → I s'
  keepInt : ∀ n s b s', I s → S.readInt n s = .ok (b, s') → I s'

theorem Alike.event {σ τ : Type} {S : Source σ} {T : Source τ} {I : σ → Prop} {f : σ → τ} (h : Alike S T I f) (checks : Bool) (s : σ) (hs : I s) :
    Event.fromAsyncRead T checks (f s) = (Event.fromAsyncRead S checks s).map (fun p => (p.1, f p.2)) ∧
    ∀ e s', Event.fromAsyncRead S checks s = .ok (e, s') → I s' := by
  unfold Event.fromAsyncRead
  rw [h.int 8 s hs]
  rcases h1 : S.readInt 8 s with ⟨tl, s1⟩ | e | _ | _ <;> simp only [Outcome.map_ok, Outcome.map_err, Outcome.map_panic, Outcome.map_hang, Outcome.bind_ok, Outcome.bind_err, Outcome.bind_panic, Outcome.bind_hang]
  case err => exact ⟨by trivial, fun _ _ h => by cases h⟩
  case panic => exact ⟨by trivial, fun _ _ h => by cases h⟩
  case hang => exact ⟨by trivial, fun _ _ h => by cases h⟩
  have i1 := h.keepInt 8 s tl s1 hs h1
  rw [h.int 2 s1 i1]
  rcases h2 : S.readInt 2 s1 with ⟨hl, s2⟩ | e | _ | _ <;> simp only [Outcome.map_ok, Outcome.map_err, Outcome.map_panic, Outcome.map_hang, Outcome.bind_ok, Outcome.bind_err, Outcome.bind_panic, Outcome.bind_hang]
  case err => exact ⟨by trivial, fun _ _ h => by cases h⟩
  case panic => exact ⟨by trivial, fun _ _ h => by cases h⟩
  case hang => exact ⟨by trivial, fun _ _ h => by cases h⟩
  have i2 := h.keepInt 2 s1 hl s2 i1 h2
  rcases subU64 checks (UInt64.ofNat (beVal tl)) (UInt64.ofNat (UInt16.ofNat (beVal hl)).toNat) with dl | e | _ | _ <;> simp only [Outcome.map_err, Outcome.map_panic, Outcome.map_hang, Outcome.bind_ok, Outcome.bind_err, Outcome.bind_panic, Outcome.bind_hang]
  case err => exact ⟨by trivial, fun _ _ h => by cases h⟩
  case panic => exact ⟨by trivial, fun _ _ h => by cases h⟩
  case hang => exact ⟨by trivial, fun _ _ h => by cases h⟩
  rw [h.exact _ s2 i2]
  rcases h3 : S.readExact (UInt16.ofNat (beVal hl)).toNat s2 with ⟨hb, s3⟩ | e | _ | _ <;> simp only [Outcome.map_ok, Outcome.map_err, Outcome.map_panic, Outcome.map_hang, Outcome.bind_ok, Outcome.bind_err, Outcome.bind_panic, Outcome.bind_hang]
  case err => exact ⟨by trivial, fun _ _ h => by cases h⟩
  case panic => exact ⟨by trivial, fun _ _ h => by cases h⟩
  case hang => exact ⟨by trivial, fun _ _ h => by cases h⟩
  have i3 := h.keepExact _ s2 hb s3 i2 h3
  rcases EventHeader.fromRead hb with ⟨hd, _⟩ | e | _ | _ <;> simp only [Outcome.map_err, Outcome.map_panic, Outcome.map_hang, Outcome.bind_ok, Outcome.bind_err, Outcome.bind_panic, Outcome.bind_hang]
  case err => exact ⟨by trivial, fun _ _ h => by cases h⟩
  case panic => exact ⟨by trivial, fun _ _ h => by cases h⟩
  case hang => exact ⟨by trivial, fun _ _ h => by cases h⟩
  rcases allocVec dl.toNat with _ | e | _ | _ <;> simp only [Outcome.map_err, Outcome.map_panic, Outcome.map_hang, Outcome.bind_ok, Outcome.bind_err, Outcome.bind_panic, Outcome.bind_hang]
  case err => exact ⟨by trivial, fun _ _ h => by cases h⟩
  case panic => exact ⟨by trivial, fun _ _ h => by cases h⟩
  case hang => exact ⟨by trivial, fun _ _ h => by cases h⟩
  rw [h.exact _ s3 i3]
  rcases h4 : S.readExact dl.toNat s3 with ⟨db, s4⟩ | e | _ | _ <;> simp only [Outcome.map_ok, Outcome.map_err, Outcome.map_panic, Outcome.map_hang, Outcome.bind_ok, Outcome.bind_err, Outcome.bind_panic, Outcome.bind_hang, Outcome.pure_eq]
  case err => exact ⟨by trivial, fun _ _ h => by cases h⟩
  case panic => exact ⟨by trivial, fun _ _ h => by cases h⟩
  case hang => exact ⟨by trivial, fun _ _ h => by cases h⟩
  refine ⟨by trivial, fun e s' he => ?_⟩
  cases he
  exact h.keepExact _ s3 db s4 i3 h4

theorem Alike.loop {σ τ : Type} {S : Source σ} {T : Source τ} {I : σ → Prop} {f : σ → τ} (h : Alike S T I f) (checks : Bool) : ∀ (fuel : Nat) (s : σ), I s →
    readLoop T checks fuel (f s) = readLoop S checks fuel s := by
  intro fuel
  induction fuel with
  | zero => intro s _; rfl
  | succ fuel ih =>
    intro s hs
    obtain ⟨h1, h2⟩ := h.event checks s hs
    unfold readLoop
    rw [h1]
    rcases hr : Event.fromAsyncRead S checks s with ⟨e, s'⟩ | e | _ | _
    · simp only [Outcome.map_ok]
      rw [ih s' (h2 e s' hr)]
    · rfl
    · rfl
    · rfl

theorem one_alike (A : Aead) : Alike (cryptSource A) (source (encryptedR socketR A)) (fun r => ReadOk r.rs) (fun r => (r.rs, r.script)) where
  exact n s h := drive_one A false _ _ n [] s.rs s.script h (Nat.lt_succ_self _) (by omega) (by simp)
  int n s h := drive_one A true _ _ n [] s.rs s.script h (Nat.lt_succ_self _) (by omega) (by simp)
  keepExact n s b s' h hs := drive_readOk A false _ _ _ s h b s' hs
  keepInt n s b s' h hs := drive_readOk A true _ _ _ s h b s' hs

end Bromine.Layers
