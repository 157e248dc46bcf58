import Verif.Spec.FairStack
import Verif.Lemmas.Link
/-
In a fair execution of a link, the connection gets free again and again, and everything that is emitted gets to the receiver.
-/
namespace Bromine.Link
open Spec Props

/-- What the proofs below need of a link: `held`: an emit holds the connection; `wlen`: the number of bytes written; `sent`: of bytes delivered;
`size es`: of the bytes of the events `es`. -/
structure Moves (L : Link) (car : Event → Prop) (W T : L.Op → Prop) where
  held : L.State → Prop
  wlen : L.State → Nat
  sent : L.State → Nat
  size : List Event → Nat
  size_mono : ∀ a b, size a ≤ size (a ++ b)
  can_write : ∀ {s em rd}, Hist L s em rd → (∀ e ∈ em, car e) → held s → ∃ o s', W o ∧ L.step s o = some s'
  writes : ∀ {s em rd o s'}, Hist L s em rd → (∀ e ∈ em, car e) → held s → W o → L.step s o = some s' → ¬ held s' ∨ wlen s < wlen s'
  bound : ∀ {s em rd}, Hist L s em rd → (∀ e ∈ em, car e) → wlen s ≤ size em
  full : ∀ {s em rd}, Hist L s em rd → (∀ e ∈ em, car e) → ¬ held s → wlen s = size em
  can_emit : ∀ {s em rd} (e : Event), Hist L s em rd → (∀ e ∈ em, car e) → ¬ held s → ∃ s', L.emit s e = some s'
  no_emit : ∀ {s s' em rd e}, Hist L s em rd → (∀ e ∈ em, car e) → held s → L.emit s e ≠ some s'
  can_carry : ∀ {s}, sent s < wlen s → ∃ o s', T o ∧ L.step s o = some s'
  carries : ∀ {s o s'}, T o → L.step s o = some s' → sent s < sent s'
  mono_step : ∀ {s o s'}, L.step s o = some s' → wlen s ≤ wlen s' ∧ sent s ≤ sent s'
  mono_emit : ∀ {s e s'}, L.emit s e = some s' → wlen s ≤ wlen s' ∧ sent s ≤ sent s'
  mono_read : ∀ {s e s'}, L.read s = some (e, s') → wlen s ≤ wlen s' ∧ sent s ≤ sent s'
  can_read : ∀ {s em rd}, Hist L s em rd → (∀ e ∈ em, car e) → rd.length < em.length → size (em.take (rd.length + 1)) ≤ sent s →
    ∃ e s', L.read s = some (e, s')

/-- An infinite execution of a link. -/
structure Runs (L : Link) (x : Nat → L.State) (em rd : Nat → List Event) (lop : Nat → Option L.Op) : Prop where
  hist : ∀ n, Hist L (x n) (em n) (rd n)
  step : ∀ n o, lop n = some o → L.step (x n) o = some (x (n + 1)) ∧ em (n + 1) = em n
  other : ∀ n, lop n = none → (x (n + 1) = x n ∧ em (n + 1) = em n) ∨ (∃ e, L.emit (x n) e = some (x (n + 1)) ∧ em (n + 1) = em n ++ [e]) ∨
    ∃ e, L.read (x n) = some (e, x (n + 1)) ∧ em (n + 1) = em n

/-- A function that grows again and again, and never shrinks, exceeds every bound. -/
theorem climb {f : Nat → Nat} {n : Nat} (hm : ∀ m, n ≤ m → f m ≤ f (m + 1)) (hi : ∀ m, n ≤ m → ∃ m', m ≤ m' ∧ f m' < f (m' + 1)) (B : Nat) :
    ∃ m, n ≤ m ∧ B ≤ f m := by
  have mono : ∀ a b, n ≤ a → a ≤ b → f a ≤ f b := by
    intro a b ha hab
    induction hab with
    | refl => exact Nat.le_refl _
    | @step b hb ih => exact Nat.le_trans ih (hm b (by simp at hb; omega))
  induction B with
  | zero => exact ⟨n, Nat.le_refl _, Nat.zero_le _⟩
  | succ B ih =>
    obtain ⟨m, h1, h2⟩ := ih
    obtain ⟨m', h3, h4⟩ := hi m h1
    have := mono m m' h1 h3
    exact ⟨m' + 1, by omega, by omega⟩

section
variable {L : Link} {car : Event → Prop} {W T : L.Op → Prop} {x : Nat → L.State} {em rd : Nat → List Event} {lop : Nat → Option L.Op}

theorem Runs.mono (R : Runs L x em rd lop) (M : Moves L car W T) (n : Nat) :
    M.wlen (x n) ≤ M.wlen (x (n + 1)) ∧ M.sent (x n) ≤ M.sent (x (n + 1)) ∧ em n <+: em (n + 1) := by
  cases h : lop n with
  | some o =>
    obtain ⟨h1, h2⟩ := R.step n o h
    exact ⟨(M.mono_step h1).1, (M.mono_step h1).2, by rw [h2]; exact List.prefix_rfl⟩
  | none =>
    rcases R.other n h with ⟨h1, h2⟩ | ⟨e, h1, h2⟩ | ⟨e, h1, h2⟩
    · rw [h1, h2]; exact ⟨Nat.le_refl _, Nat.le_refl _, List.prefix_rfl⟩
    · rw [h2]; exact ⟨(M.mono_emit h1).1, (M.mono_emit h1).2, List.prefix_append _ _⟩
    · rw [h2]; exact ⟨(M.mono_read h1).1, (M.mono_read h1).2, List.prefix_rfl⟩

theorem Runs.later (R : Runs L x em rd lop) (M : Moves L car W T) {n m : Nat} (h : n ≤ m) :
    M.wlen (x n) ≤ M.wlen (x m) ∧ M.sent (x n) ≤ M.sent (x m) ∧ em n <+: em m := by
  induction h with
  | refl => exact ⟨Nat.le_refl _, Nat.le_refl _, List.prefix_rfl⟩
  | @step m _ ih =>
    have := R.mono M m
    exact ⟨Nat.le_trans ih.1 this.1, Nat.le_trans ih.2.1 this.2.1, ih.2.2.trans this.2.2⟩

/-- The connection gets free. -/
theorem Runs.frees (R : Runs L x em rd lop) (M : Moves L car W T) (hc : ∀ n, ∀ e ∈ em n, car e)
    (hw : ∀ n, (∀ m, n ≤ m → ∃ o s', W o ∧ L.step (x m) o = some s') → ∃ m, n ≤ m ∧ ∃ o, lop m = some o ∧ W o) (n : Nat) : ∃ m, n ≤ m ∧ ¬ M.held (x m) := by
  apply Classical.byContradiction
  intro hno
  have held : ∀ m, n ≤ m → M.held (x m) := fun m hm => Classical.byContradiction fun h => hno ⟨m, hm, h⟩
  have same : ∀ m, n ≤ m → em m = em n := by
    intro m hm
    induction hm with
    | refl => rfl
    | @step m hm ih =>
      rw [← ih]
      simp only [Nat.le_eq] at hm
      cases h : lop m with
      | some o => exact (R.step m o h).2
      | none =>
        rcases R.other m h with ⟨-, h2⟩ | ⟨e, h1, -⟩ | ⟨e, -, h2⟩
        · exact h2
        · exact absurd h1 (M.no_emit (R.hist m) (hc m) (held m hm))
        · exact h2
  obtain ⟨m, hm, hB⟩ := climb (f := fun m => M.wlen (x m)) (n := n) (fun m _ => (R.mono M m).1) (fun m hm => by
    obtain ⟨k, hk, o, ho, hW⟩ := hw m (fun k hk => M.can_write (R.hist k) (hc k) (held k (by omega)))
    rcases M.writes (R.hist k) (hc k) (held k (by omega)) hW (R.step k o ho).1 with h | h
    · exact absurd (held (k + 1) (by omega)) h
    · exact ⟨k, hk, h⟩) (M.size (em n) + 1)
  have := M.bound (R.hist m) (hc m)
  rw [same m hm] at this
  omega

/-- Everything emitted is delivered. -/
theorem Runs.carried (R : Runs L x em rd lop) (M : Moves L car W T) (hc : ∀ n, ∀ e ∈ em n, car e)
    (hw : ∀ n, (∀ m, n ≤ m → ∃ o s', W o ∧ L.step (x m) o = some s') → ∃ m, n ≤ m ∧ ∃ o, lop m = some o ∧ W o)
    (ht : ∀ n, (∀ m, n ≤ m → ∃ o s', T o ∧ L.step (x m) o = some s') → ∃ m, n ≤ m ∧ ∃ o, lop m = some o ∧ T o) (n : Nat) :
    ∃ m, n ≤ m ∧ M.size (em n) ≤ M.sent (x m) := by
  obtain ⟨m1, hm1, hf⟩ := R.frees M hc hw n
  have hsz : ∀ m, m1 ≤ m → M.size (em n) ≤ M.wlen (x m) := by
    intro m hm
    have h1 := M.full (R.hist m1) (hc m1) hf
    obtain ⟨l, hl⟩ := (R.later M hm1).2.2
    have h2 := M.size_mono (em n) l
    have h3 := (R.later M hm).1
    rw [hl] at h2
    omega
  apply Classical.byContradiction
  intro hno
  have low : ∀ m, m1 ≤ m → M.sent (x m) < M.size (em n) := fun m hm => Nat.lt_of_not_le fun h => hno ⟨m, by omega, h⟩
  obtain ⟨m, hm, hB⟩ := climb (f := fun m => M.sent (x m)) (n := m1) (fun m _ => (R.mono M m).2.1) (fun m hm => by
    obtain ⟨k, hk, o, ho, hT⟩ := ht m (fun k hk => M.can_carry (Nat.lt_of_lt_of_le (low k (by omega)) (hsz k (by omega))))
    exact ⟨k, hk, M.carries hT (R.step k o ho).1⟩) (M.size (em n))
  have := low m hm
  omega

end

/-! ### Plain connections -/

theorem frames_length_le (a b : List Event) : (frames a).length ≤ (frames (a ++ b)).length := by rw [frames_append]; simp

theorem deliver_some {wire : Bytes} {sent : Nat} (chunks : List Chunk) (h : sent < wire.length) : ∃ r, deliver wire sent 0 chunks = some r := by
  unfold deliver
  rw [if_pos (by omega)]
  exact ⟨_, rfl⟩

theorem deliver_sent {wire : Bytes} {sent n : Nat} {chunks cs : List Chunk} {k : Nat} (h : deliver wire sent n chunks = some (k, cs)) : sent < k := by
  unfold deliver at h
  split at h
  · simp only [Option.some.injEq, Prod.mk.injEq] at h; omega
  · cases h

/-- The bytes of the next event have been delivered. -/
theorem Carried.next {enc : List Event → Bytes} {wire : Bytes} {sent : Nat} {chunks : List Chunk} {em rd : List Event}
    (h : Carried enc wire sent chunks em rd) {e : Event} {b rest : Bytes} (h1 : enc (rd ++ [e]) = enc rd ++ b)
    (h2 : enc em = enc rd ++ (b ++ rest)) (hs : (enc (rd ++ [e])).length ≤ sent) : b <+: flat chunks := by
  have hu := h.unread h2
  refine List.prefix_of_prefix_length_le (List.prefix_append _ _) hu ?_
  have h3 := congrArg List.length h.got
  have h4 := h.le
  have h5 := congrArg List.length h1
  simp only [List.length_append, List.length_take] at h3 h5
  omega

def plainMoves (checks : Bool) : Moves (plain checks) (fun e => Fits e ∧ Allocatable e) (Kind.plain.writes checks) (Kind.plain.transports checks) where
  held := fun s : PlainState => s.w.lock ≠ none
  wlen := fun s : PlainState => s.w.wire.length
  sent := fun s : PlainState => s.sent
  size := fun es => (frames es).length
  size_mono := frames_length_le
  can_write := by
    intro s em rd h hg hh
    have hi := plain_inv checks h hg
    obtain ⟨t, hl⟩ := Option.ne_none_iff_exists'.1 hh
    obtain ⟨em0, e, n, -, h2, h3, -⟩ := hi.held t hl
    by_cases hn : n = (Wire.frame e).length
    · refine ⟨PlainOp.flush, ?_⟩
      have : ∃ s', plainStep s .flush = some s' := by
        simp only [plainStep, hl, Wire.step, h2]; rw [if_pos hn]; exact ⟨_, rfl⟩
      exact this.imp fun s' hs => ⟨.inr rfl, hs⟩
    · refine ⟨PlainOp.write 0, ?_⟩
      have : ∃ s', plainStep s (.write 0) = some s' := by
        simp only [plainStep, hl, Wire.step, h2]; rw [if_pos (by omega)]; exact ⟨_, rfl⟩
      exact this.imp fun s' hs => ⟨.inl ⟨0, rfl⟩, hs⟩
  writes := by
    intro s em rd o s' h hg hh hW hs
    have hi := plain_inv checks h hg
    obtain ⟨t, hl⟩ := Option.ne_none_iff_exists'.1 hh
    obtain ⟨em0, e, n, -, h2, h3, -⟩ := hi.held t hl
    change plainStep s o = some s' at hs
    rcases hW with ⟨k, rfl⟩ | rfl
    · right
      simp only [plainStep, hl, Wire.step, h2] at hs
      split at hs
      · simp only [Option.map_some] at hs
        cases hs
        simp only [List.length_append, List.length_take, List.length_drop]
        omega
      · cases hs
    · left
      simp only [plainStep, hl, Wire.step, h2] at hs
      split at hs
      · simp only [Option.map_some] at hs
        cases hs
        simp
      · cases hs
  bound := fun h hg => (plain_inv checks h hg).carried.onWire.length_le
  full := by
    intro s em rd h hg hh
    have hh : (PlainState.w s).lock = none := Classical.not_not.1 hh
    show (PlainState.w s).wire.length = _
    rw [(plain_inv checks h hg).free hh]
  can_emit := by
    intro s em rd e h hg hh
    have hh : (PlainState.w s).lock = none := Classical.not_not.1 hh
    have hf := (plain_inv checks h hg).fresh _ (Nat.le_refl _)
    show ∃ s', ((Wire.step (PlainState.w s) (.start (PlainState.w s).log.length e)).bind fun w => Wire.step w (.lock (PlainState.w s).log.length)).map
      (fun w => ({ (show PlainState from s) with w := w } : PlainState)) = some s'
    simp only [Wire.step, hf, Option.bind_some, Wire.set, if_true, hh, Option.map_some]
    exact ⟨_, rfl⟩
  no_emit := by
    intro s s' em rd e h hg hh hs
    change (((Wire.step (PlainState.w s) (.start (PlainState.w s).log.length e)).bind fun w => Wire.step w (.lock (PlainState.w s).log.length)).map
      (fun w => ({ (show PlainState from s) with w := w } : PlainState))) = some s' at hs
    obtain ⟨t, hl⟩ := Option.ne_none_iff_exists'.1 hh
    have hf := (plain_inv checks h hg).fresh _ (Nat.le_refl _)
    simp [Wire.step, hf, Wire.set, hl] at hs
  can_carry := by
    intro s hs
    obtain ⟨r, hr⟩ := deliver_some (PlainState.chunks s) hs
    refine ⟨PlainOp.deliver 0, ?_⟩
    have : ∃ s', plainStep s (.deliver 0) = some s' := by simp only [plainStep, hr]; exact ⟨_, rfl⟩
    exact this.imp fun s' hs => ⟨⟨0, rfl⟩, hs⟩
  carries := by
    rintro s o s' ⟨n, rfl⟩ hs
    change plainStep s (.deliver n) = some s' at hs
    simp only [plainStep] at hs
    obtain ⟨⟨k, cs⟩, hd, rfl⟩ := Option.map_eq_some_iff.1 hs
    exact deliver_sent hd
  mono_step := by
    intro s o s' hs
    change plainStep s o = some s' at hs
    cases o with
    | write n =>
      simp only [plainStep] at hs
      split at hs
      · obtain ⟨w, hw, rfl⟩ := Option.map_eq_some_iff.1 hs
        simp only [Wire.step] at hw
        split at hw
        · split at hw
          · cases hw; simp
          · cases hw
        · cases hw
      · cases hs
    | flush =>
      simp only [plainStep] at hs
      split at hs
      · obtain ⟨w, hw, rfl⟩ := Option.map_eq_some_iff.1 hs
        simp only [Wire.step] at hw
        split at hw
        · split at hw
          · cases hw; exact ⟨Nat.le_refl _, Nat.le_refl _⟩
          · cases hw
        · cases hw
      · cases hs
    | deliver n =>
      simp only [plainStep] at hs
      obtain ⟨⟨k, cs⟩, hd, rfl⟩ := Option.map_eq_some_iff.1 hs
      exact ⟨Nat.le_refl _, Nat.le_of_lt (deliver_sent hd)⟩
    | wait => simp only [plainStep] at hs; cases hs; exact ⟨Nat.le_refl _, Nat.le_refl _⟩
  mono_emit := by
    intro s e s' hs
    change (((Wire.step (PlainState.w s) (.start (PlainState.w s).log.length e)).bind fun w => Wire.step w (.lock (PlainState.w s).log.length)).map
      (fun w => ({ (show PlainState from s) with w := w } : PlainState))) = some s' at hs
    obtain ⟨w, hw, rfl⟩ := Option.map_eq_some_iff.1 hs
    obtain ⟨w1, hw1, hw⟩ := Option.bind_eq_some_iff.1 hw
    simp only [Wire.step] at hw1 hw
    split at hw1
    · cases hw1
      split at hw
      · cases hw; exact ⟨Nat.le_refl _, Nat.le_refl _⟩
      · cases hw
    · cases hw1
  mono_read := by
    intro s e s' hs
    change (match Event.fromAsyncRead scriptSource checks { chunks := (PlainState.chunks s), closed := false } with
      | .ok (e, sc) => some (e, ({ (show PlainState from s) with chunks := sc.chunks } : PlainState))
      | _ => none) = some (e, s') at hs
    split at hs
    · cases hs; exact ⟨Nat.le_refl _, Nat.le_refl _⟩
    · cases hs
  can_read := by
    intro s em rd h hg hlt hs
    have hi := plain_inv checks h hg
    obtain ⟨tl, htl⟩ := hi.carried.pre
    cases tl with
    | nil => rw [List.append_nil] at htl; subst htl; omega
    | cons e tl =>
      have hge := hg e (by rw [← htl]; simp)
      have htk : em.take (rd.length + 1) = rd ++ [e] := by rw [← htl, List.take_append, List.take_of_length_le (by omega)]; simp
      rw [htk] at hs
      obtain ⟨rest, hrest⟩ := hi.carried.next (b := Wire.frame e) (rest := frames tl) (by rw [frames_append]; simp [frames])
        (by rw [← htl, frames_append]; simp [frames]) hs
      obtain ⟨sc, hr, hb, -⟩ := (C04_decoder_iff_transport checks { chunks := PlainState.chunks s, closed := false } e rest).2
        ((C04_decoder_iff checks (flat (PlainState.chunks s)) rest e).1 (by rw [← hrest]; exact fromBytes_frame_append hge checks rest))
      refine ⟨e, ({ (show PlainState from s) with chunks := sc.chunks } : PlainState), ?_⟩
      show (match Event.fromAsyncRead scriptSource checks { chunks := PlainState.chunks s, closed := false } with
        | .ok (e, sc) => some (e, ({ (show PlainState from s) with chunks := sc.chunks } : PlainState))
        | _ => none) = _
      rw [hr]
      rfl

/-! ### Encrypted connections -/

section
open CryptWire CryptIO

theorem pollWriteAll_grows {rem : Bytes} {n : Nat} {as : List IoAns} (h : rem ≠ []) : 0 < (pollWriteAll rem (.ready (n + 1) :: as)).2.1.length := by
  cases rem with
  | nil => exact absurd rfl h
  | cons b bs => simp [pollWriteAll]

theorem packageBytes_ne (c : Bytes) : packageBytes c ≠ [] := by
  intro h
  have := congrArg List.length h
  simp [packageBytes] at this

/-- A poll of the flush for which the transport has an answer ends it or writes something. -/
theorem flushStage_progress {A : Aead} {s : CryptWire.State} {t : Nat} {e : Event} {ws : WriteStream} {wire : Bytes} {n : Nat} {as : List IoAns}
    (h : (∃ f, ws.futFlush = some f) ∨ (ws.futFlush = none ∧ ws.inner = true ∧ ws.cipher = true)) :
    (pollFlushStage A s t e ws wire (.ready (n + 1) :: as)).lock = none ∨ wire.length < (pollFlushStage A s t e ws wire (.ready (n + 1) :: as)).wire.length := by
  have key : (∃ r, (ws.pollFlush A (.ready (n + 1) :: as)).poll = .ready r) ∨ 0 < (ws.pollFlush A (.ready (n + 1) :: as)).wire.length := by
    have fw : ∀ (ws : WriteStream) (rem : Bytes), (∃ r, (pollFlushWrite ws rem (.ready (n + 1) :: as)).poll = .ready r) ∨
        0 < (pollFlushWrite ws rem (.ready (n + 1) :: as)).wire.length := by
      intro ws rem
      cases rem with
      | nil => left; simp only [pollFlushWrite, pollWriteAll, pollFutFlush]; exact ⟨_, rfl⟩
      | cons b bs =>
        right
        have hg := pollWriteAll_grows (rem := b :: bs) (n := n) (as := as) (by simp)
        simp only [pollFlushWrite]
        split <;> rename_i heq <;> rw [heq] at hg <;> exact hg
    rcases h with ⟨f, hf⟩ | ⟨hf, hi, hc⟩
    · simp only [WriteStream.pollFlush, hf]
      cases f with
      | writing rem => exact fw ws rem
      | flushing => left; exact ⟨_, rfl⟩
    · simp only [WriteStream.pollFlush, hf, hi, hc, Bool.and_self, if_true]
      split
      · split
        · exact fw _ _
        · left; exact ⟨_, rfl⟩
      · left; exact ⟨_, rfl⟩
  simp only [pollFlushStage]
  rcases key with ⟨r, hr⟩ | hw
  · left
    rw [hr]
    cases r <;> rfl
  · right
    split <;> simp <;> omega

theorem flushStage_wire {A : Aead} {s : CryptWire.State} {t : Nat} {e : Event} {ws : WriteStream} {wire : Bytes} {as : List IoAns} :
    wire.length ≤ (pollFlushStage A s t e ws wire as).wire.length := by
  simp only [pollFlushStage]
  split <;> simp

theorem poll_progress {A : Aead} {key : Bytes} {s s' : CryptWire.State} (h : CryptWire.Inv A key s) (hb : s.broken = false)
    (hsz : ∀ x ∈ s.log, CryptWire.Sized x.2) {t : Nat} (hl : s.lock = some t) {n : Nat} {as : List IoAns}
    (hs : CryptWire.step A s (.poll t (.ready (n + 1) :: as)) = some s') : s'.lock = none ∨ s.wire.length < s'.wire.length := by
  obtain ⟨lg, e, hlg, hp⟩ := h.phase hb hsz t hl
  have fut : ∀ (ws : WriteStream) (rem : Bytes) (len : Nat), ws.futFlush = none → ∀ s' : CryptWire.State,
      s' = (match (pollFutWrite ws rem len (.ready (n + 1) :: as)).poll with
        | .pending _ => { s with tasks := Wire.set s.tasks t (some (.writing e)), ws := (pollFutWrite ws rem len (.ready (n + 1) :: as)).ws, wire := s.wire ++ (pollFutWrite ws rem len (.ready (n + 1) :: as)).wire }
        | .ready (.ok _) => pollFlushStage A s t e (pollFutWrite ws rem len (.ready (n + 1) :: as)).ws (s.wire ++ (pollFutWrite ws rem len (.ready (n + 1) :: as)).wire) (pollFutWrite ws rem len (.ready (n + 1) :: as)).rest
        | _ => { s with tasks := Wire.set s.tasks t (some (.gone e)), lock := none, ws := (pollFutWrite ws rem len (.ready (n + 1) :: as)).ws, wire := s.wire ++ (pollFutWrite ws rem len (.ready (n + 1) :: as)).wire, broken := true }) →
      s'.lock = none ∨ s.wire.length < s'.wire.length := by
    intro ws rem len hf s' hs
    cases rem with
    | nil =>
      simp only [pollFutWrite, pollWriteAll, List.append_nil] at hs
      subst hs
      exact flushStage_progress (.inr ⟨hf, rfl, rfl⟩)
    | cons b bs =>
      have hg : 0 < (pollFutWrite ws (b :: bs) len (.ready (n + 1) :: as)).wire.length := by
        have hg := pollWriteAll_grows (rem := b :: bs) (n := n) (as := as) (by simp)
        simp only [pollFutWrite]
        split <;> rename_i heq <;> rw [heq] at hg <;> exact hg
      right
      subst hs
      split
      · simp; omega
      · have := flushStage_wire (A := A) (s := s) (t := t) (e := e) (ws := (pollFutWrite ws (b :: bs) len (.ready (n + 1) :: as)).ws)
          (wire := s.wire ++ (pollFutWrite ws (b :: bs) len (.ready (n + 1) :: as)).wire) (as := (pollFutWrite ws (b :: bs) len (.ready (n + 1) :: as)).rest)
        simp only [List.length_append] at this
        omega
      · simp; omega
  rcases hp with ⟨ht, x, hws, -⟩ | ⟨ht, x, rem, hws, -⟩ | ⟨ht, x, f, hws, -⟩
  · simp only [CryptWire.step, ht, Option.some.injEq, pollWriteStage] at hs
    have hr : (∃ ws rem len, ws.futFlush = none ∧ s.ws.pollWrite A (Wire.frame e) (.ready (n + 1) :: as) = pollFutWrite ws rem len (.ready (n + 1) :: as)) ∨
        (∃ er ws, s.ws.pollWrite A (Wire.frame e) (.ready (n + 1) :: as) = { poll := .ready (.error er), ws := ws, rest := .ready (n + 1) :: as }) ∨
        s.ws.pollWrite A (Wire.frame e) (.ready (n + 1) :: as) =
          { poll := .ready (.ok (Wire.frame e).length), ws := { enc := x, buffer := Wire.frame e }, rest := .ready (n + 1) :: as } := by
      rw [hws]
      simp only [WriteStream.pollWrite, List.nil_append, Bool.and_self, if_true]
      split
      · split
        · exact .inl ⟨_, _, _, by rfl, rfl⟩
        · exact .inr (.inl ⟨_, _, rfl⟩)
      · exact .inr (.inr rfl)
    rcases hr with ⟨ws, rem, len, hf, hr⟩ | ⟨er, ws, hr⟩ | hr
    · rw [hr] at hs
      exact fut ws rem len hf s' hs.symm
    · rw [hr] at hs
      subst hs; left; rfl
    · rw [hr] at hs
      subst hs
      simp only [List.append_nil]
      exact flushStage_progress (.inr ⟨rfl, rfl, rfl⟩)
  · simp only [CryptWire.step, ht, Option.some.injEq, pollWriteStage, hws, WriteStream.pollWrite] at hs
    exact fut _ _ _ rfl s' hs.symm
  · simp only [CryptWire.step, ht, Option.some.injEq, hws] at hs
    subst hs
    exact flushStage_progress (.inl ⟨f, rfl⟩)

end

theorem crypt_inner (A : Aead) (key : Bytes) (log : List Encryption) (checks : Bool) {s : (crypt A key log checks).State} {em rd : List Event}
    (h : Hist (crypt A key log checks) s em rd) (hg : ∀ e ∈ em, Small e) :
    CryptWire.Inv A key (CryptState.w s) ∧ ∀ x ∈ (CryptState.w s).log, CryptWire.Sized x.2 := by
  have hi := crypt_inv A key log checks h hg
  refine ⟨?_, fun x hx => sized_of_small (hg x.2 ?_)⟩
  · obtain ⟨ops, ho⟩ := hi.run; exact CryptWire.inv_run (CryptWire.inv_init A key log) ho
  · rw [← hi.log]; exact List.mem_map.2 ⟨x, hx, rfl⟩

def cryptMoves (A : Aead) (key : Bytes) (log : List Encryption) (checks : Bool) :
    Moves (crypt A key log checks) Small ((Kind.encrypted A key log).writes checks) ((Kind.encrypted A key log).transports checks) where
  held := fun s : CryptState => s.w.lock ≠ none
  wlen := fun s : CryptState => s.w.wire.length
  sent := fun s : CryptState => s.sent
  size := fun es => (CryptWire.pkgs A key 0 es).length
  size_mono := by intro a b; simp only [pkgs_append, List.length_append]; omega
  can_write := by
    intro s em rd h hg hh
    have hi := crypt_inv A key log checks h hg
    obtain ⟨t, hl⟩ := Option.ne_none_iff_exists'.1 hh
    obtain ⟨ops, ho⟩ := hi.run
    obtain ⟨w, e, g1, g2, g3, g4⟩ := C40_progress A key ops s.w ho hi.ok
      (fun t e he => hg e (by rw [← hi.log]; exact List.mem_map.2 ⟨(t, e), he, rfl⟩)) t hl
    obtain ⟨k, hk⟩ : ∃ k : Nat, 2 ^ 33 = k + 1 := Nat.exists_eq_succ_of_ne_zero (Nat.ne_of_gt (Nat.pow_pos (by omega)))
    rw [hk] at g1
    refine ⟨CryptOp.poll [.ready (k + 1), .ready (k + 1)], ({ (show CryptState from s) with w := w } : CryptState), ⟨k, _, rfl⟩, ?_⟩
    show cryptStep A s (.poll [.ready (k + 1), .ready (k + 1)]) = _
    simp only [cryptStep, hl, g1, g4]
    rfl
  writes := by
    intro s em rd o s' h hg hh hW hs
    obtain ⟨t, hl⟩ := Option.ne_none_iff_exists'.1 hh
    obtain ⟨k1, k2⟩ := crypt_inner A key log checks h hg
    obtain ⟨n, as, rfl⟩ := hW
    change cryptStep A s (.poll (.ready (n + 1) :: as)) = some s' at hs
    simp only [cryptStep, hl] at hs
    split at hs
    · rename_i w hw
      split at hs
      · cases hs
      · cases hs
        rcases poll_progress k1 (crypt_inv A key log checks h hg).ok k2 hl hw with h | h
        · left; exact fun h' => h' h
        · exact .inr h
    · cases hs
  bound := fun h hg => (crypt_inv A key log checks h hg).carried.onWire.length_le
  full := by
    intro s em rd h hg hh
    have hh : (CryptState.w s).lock = none := Classical.not_not.1 hh
    obtain ⟨k1, k2⟩ := crypt_inner A key log checks h hg
    have hi := crypt_inv A key log checks h hg
    show (CryptState.w s).wire.length = _
    rw [(crypt_wire k1 hi.ok (by rw [hi.log]; exact hg)).2 hh, hi.log]
  can_emit := by
    intro s em rd e h hg hh
    have hh : (CryptState.w s).lock = none := Classical.not_not.1 hh
    have hf := (crypt_inv A key log checks h hg).fresh _ (Nat.le_refl _)
    show ∃ s', ((CryptWire.step A (CryptState.w s) (.start (CryptState.w s).log.length e)).bind fun w => CryptWire.step A w (.lock (CryptState.w s).log.length)).map
      (fun w => ({ (show CryptState from s) with w := w } : CryptState)) = some s'
    simp only [CryptWire.step, hf, Option.bind_some, Wire.set, if_true, hh, Option.map_some]
    exact ⟨_, rfl⟩
  no_emit := by
    intro s s' em rd e h hg hh hs
    change (((CryptWire.step A (CryptState.w s) (.start (CryptState.w s).log.length e)).bind fun w => CryptWire.step A w (.lock (CryptState.w s).log.length)).map
      (fun w => ({ (show CryptState from s) with w := w } : CryptState))) = some s' at hs
    obtain ⟨t, hl⟩ := Option.ne_none_iff_exists'.1 hh
    have hf := (crypt_inv A key log checks h hg).fresh _ (Nat.le_refl _)
    simp [CryptWire.step, hf, Wire.set, hl] at hs
  can_carry := by
    intro s hs
    obtain ⟨r, hr⟩ := deliver_some (CryptState.chunks s) hs
    refine ⟨CryptOp.deliver 0, ?_⟩
    have : ∃ s', cryptStep A s (.deliver 0) = some s' := by simp only [cryptStep, hr]; exact ⟨_, rfl⟩
    exact this.imp fun s' hs => ⟨⟨0, rfl⟩, hs⟩
  carries := by
    rintro s o s' ⟨n, rfl⟩ hs
    change cryptStep A s (.deliver n) = some s' at hs
    simp only [cryptStep] at hs
    obtain ⟨⟨k, cs⟩, hd, rfl⟩ := Option.map_eq_some_iff.1 hs
    exact deliver_sent hd
  mono_step := by
    intro s o s' hs
    change cryptStep A s o = some s' at hs
    cases o with
    | poll as =>
      simp only [cryptStep] at hs
      split at hs
      · split at hs
        · rename_i w hw
          split at hs
          · cases hs
          · cases hs
            obtain ⟨x, hx⟩ := poll_wire hw
            refine ⟨?_, Nat.le_refl _⟩
            show _ ≤ w.wire.length
            rw [hx]; simp
        · cases hs
      · cases hs
    | deliver n =>
      simp only [cryptStep] at hs
      obtain ⟨⟨k, cs⟩, hd, rfl⟩ := Option.map_eq_some_iff.1 hs
      exact ⟨Nat.le_refl _, Nat.le_of_lt (deliver_sent hd)⟩
    | wait => simp only [cryptStep] at hs; cases hs; exact ⟨Nat.le_refl _, Nat.le_refl _⟩
  mono_emit := by
    intro s e s' hs
    change (((CryptWire.step A (CryptState.w s) (.start (CryptState.w s).log.length e)).bind fun w => CryptWire.step A w (.lock (CryptState.w s).log.length)).map
      (fun w => ({ (show CryptState from s) with w := w } : CryptState))) = some s' at hs
    obtain ⟨w, hw, rfl⟩ := Option.map_eq_some_iff.1 hs
    obtain ⟨w1, hw1, hw⟩ := Option.bind_eq_some_iff.1 hw
    simp only [CryptWire.step] at hw1 hw
    split at hw1
    · cases hw1
      split at hw
      · cases hw; exact ⟨Nat.le_refl _, Nat.le_refl _⟩
      · cases hw
    · cases hw1
  mono_read := by
    intro s e s' hs
    change (match Event.fromAsyncRead (CryptIO.cryptSource A) checks { rs := CryptState.rs s, script := { chunks := CryptState.chunks s, closed := false } } with
      | .ok (e, r) => some (e, ({ (show CryptState from s) with chunks := r.script.chunks, rs := r.rs } : CryptState))
      | _ => none) = some (e, s') at hs
    split at hs
    · cases hs; exact ⟨Nat.le_refl _, Nat.le_refl _⟩
    · cases hs
  can_read := by
    intro s em rd h hg hlt hs
    have hi := crypt_inv A key log checks h hg
    obtain ⟨tl, htl⟩ := hi.carried.pre
    cases tl with
    | nil => rw [List.append_nil] at htl; subst htl; omega
    | cons e tl =>
      have hse := hg e (by rw [← htl]; simp)
      have htk : em.take (rd.length + 1) = rd ++ [e] := by rw [← htl, List.take_append, List.take_of_length_le (by omega)]; simp
      rw [htk] at hs
      obtain ⟨rest, hrest⟩ := hi.carried.next (e := e) (b := CryptWire.pk A key rd.length e) (rest := CryptWire.pkgs A key (rd.length + 1) tl)
        (by rw [pkgs_append]; simp [CryptWire.pkgs]) (by rw [← htl, pkgs_append]; simp [CryptWire.pkgs]) hs
      obtain ⟨-, h2, h3⟩ := package_pk (A := A) (key := key) (i := rd.length) hse
      have hne : Wire.frame e ≠ [] := List.length_pos_iff.1 (sized_of_small hse).1
      obtain ⟨cs', h4, h5⟩ := CryptIO.read_sealed (A := A) (d := { key := key, count := UInt64.ofNat rd.length }) (closed := false) (checks := checks) h2 h3
        (fromBytes_frame checks hse) hne hrest.symm
      have hidle : ({ rs := CryptState.rs s, script := { chunks := CryptState.chunks s, closed := false } } : CryptIO.Reader) =
          CryptIO.idle { key := key, count := UInt64.ofNat rd.length } (CryptState.chunks s) false := by rw [hi.rs]; rfl
      refine ⟨e, ({ (show CryptState from s) with chunks := cs', rs := { dec := { key := key, count := UInt64.ofNat rd.length + 1 } } } : CryptState), ?_⟩
      show (match Event.fromAsyncRead (CryptIO.cryptSource A) checks { rs := CryptState.rs s, script := { chunks := CryptState.chunks s, closed := false } } with
        | .ok (e, r) => some (e, ({ (show CryptState from s) with chunks := r.script.chunks, rs := r.rs } : CryptState))
        | _ => none) = _
      rw [hidle, h5]
      rfl

/-! ### What moves can get everything read -/

/-- Whatever has been emitted can be read. -/
theorem Moves.live {L : Link} {car : Event → Prop} {W T : L.Op → Prop} (M : Moves L car W T) (hf : Faithful L car) : Live L car := by
  -- the emit that holds the connection is done
  have free : ∀ (n : Nat) s em rd, Hist L s em rd → (∀ e ∈ em, car e) → M.size em - M.wlen s ≤ n → ∃ s', Live.Drains L s s' ∧ Hist L s' em rd ∧ ¬ M.held s' := by
    intro n
    induction n with
    | zero =>
      intro s em rd h hg hn
      by_cases hh : M.held s
      · obtain ⟨o, s', hW, hs⟩ := M.can_write h hg hh
        have h' := step_hist h o hs
        rcases M.writes h hg hh hW hs with h1 | h1
        · exact ⟨s', h'.1, h'.2, h1⟩
        · have := M.bound h'.2 hg
          omega
      · exact ⟨s, .refl, h, hh⟩
    | succ n ih =>
      intro s em rd h hg hn
      by_cases hh : M.held s
      · obtain ⟨o, s', hW, hs⟩ := M.can_write h hg hh
        have h' := step_hist h o hs
        rcases M.writes h hg hh hW hs with h1 | h1
        · exact ⟨s', h'.1, h'.2, h1⟩
        · obtain ⟨s'', g1, g2, g3⟩ := ih s' em rd h'.2 hg (by omega)
          exact ⟨s'', drains_trans h'.1 g1, g2, g3⟩
      · exact ⟨s, .refl, h, hh⟩
  -- everything is delivered
  have carry : ∀ (n : Nat) s em rd, Hist L s em rd → (∀ e ∈ em, car e) → M.wlen s = M.size em → M.size em - M.sent s ≤ n →
      ∃ s', Live.Drains L s s' ∧ Hist L s' em rd ∧ M.size em ≤ M.sent s' := by
    intro n
    induction n with
    | zero => intro s em rd h hg hw hn; exact ⟨s, .refl, h, by omega⟩
    | succ n ih =>
      intro s em rd h hg hw hn
      by_cases hlt : M.sent s < M.wlen s
      · obtain ⟨o, s', hT, hs⟩ := M.can_carry hlt
        have h' := step_hist h o hs
        have h1 := M.carries hT hs
        have h2 := M.bound h'.2 hg
        have h3 := (M.mono_step hs).1
        obtain ⟨s'', g1, g2, g3⟩ := ih s' em rd h'.2 hg (by omega) (by omega)
        exact ⟨s'', drains_trans h'.1 g1, g2, g3⟩
      · exact ⟨s, .refl, h, by omega⟩
  -- everything is read
  have reads : ∀ (n : Nat) s em rd, Hist L s em rd → (∀ e ∈ em, car e) → M.size em ≤ M.sent s → em.length - rd.length ≤ n →
      ∃ s', Hist L s' em em ∧ Live.Drains L s s' := by
    intro n
    induction n with
    | zero =>
      intro s em rd h hg hs hn
      have hp := hf s em rd h hg
      have : rd = em := hp.eq_of_length (by have := hp.length_le; omega)
      subst this
      exact ⟨s, h, .refl⟩
    | succ n ih =>
      intro s em rd h hg hs hn
      by_cases hlt : rd.length < em.length
      · have h1 : M.size (em.take (rd.length + 1)) ≤ M.size em := by
          have := M.size_mono (em.take (rd.length + 1)) (em.drop (rd.length + 1))
          rwa [List.take_append_drop] at this
        obtain ⟨e, s', hr⟩ := M.can_read h hg hlt (by omega)
        have h2 := (M.mono_read hr).2
        obtain ⟨s'', g1, g2⟩ := ih s' em (rd ++ [e]) (.read e h hr) hg (by omega) (by simp; omega)
        exact ⟨s'', g1, drains_trans (drains_read hr) g2⟩
      · have hp := hf s em rd h hg
        have : rd = em := hp.eq_of_length (by have := hp.length_le; omega)
        subst this
        exact ⟨s, h, .refl⟩
  intro s em rd h hg
  obtain ⟨s1, d1, h1, l1⟩ := free _ s em rd h hg (Nat.le_refl _)
  obtain ⟨s2, d2, h2, l2⟩ := carry _ s1 em rd h1 hg (M.full h1 hg l1) (Nat.le_refl _)
  obtain ⟨s3, h3, d3⟩ := reads _ s2 em rd h2 hg l2 (Nat.le_refl _)
  exact ⟨s3, h3, drains_trans d1 (drains_trans d2 d3)⟩

end Bromine.Link
