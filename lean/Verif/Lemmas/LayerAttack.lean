import Verif.Lemmas.LayerPeerSetup
import Verif.Props.CryptDrop
/-
Reading events through encrypted layers, when the outermost layer deciphers nothing but frames of events.
-/
namespace Bromine.Layers
open Bromine CryptIO Spec Props

/-! ### Polls of a layer -/

section
variable {ρ : Type} {R : ReadT ρ} {A : Aead}

/-- A poll that is ready has filled the buffer; one that is not has left no plaintext. -/
inductive Calmly (want : Nat) : Poll Unit × Bytes × ReadStream × ρ → Prop
  | ready {bs s} : bs.length = want → s.1.fut = none → Calmly want (.ready (.ok ()), bs, s)
  | pending {b bs s} : s.1.remaining = [] → Calmly want (.pending b, bs, s)
  | error {e bs s} : Calmly want (.ready (.error e), bs, s)
  | panic {bs s} : Calmly want (.panic, bs, s)

theorem calm_fut {rs : ReadStream} {r : ρ} {want : Nat} (h : rs.remaining = []) : Calmly want (Layers.pollFutRead R A rs r want) := by
  unfold Layers.pollFutRead
  split
  · split
    · exact .pending h
    · exact .error
    · exact .panic
    · split
      · exact .error
      · rw [h, List.nil_append]
        dsimp only
        split
        · exact .ready (by rw [List.length_take]; omega) rfl
        · exact .pending (List.drop_of_length_le (by omega))
  · exact .panic

theorem calm_read {s : ReadStream × ρ} {want : Nat} (h : Calm s) : Calmly want (Layers.pollRead R A s want) := by
  obtain ⟨⟨rdec, rremaining, rfut⟩, r⟩ := s
  unfold Layers.pollRead
  dsimp only
  split
  · rcases h with h | h
    · cases h
    · exact calm_fut h
  · split
    · rename_i hl
      rw [List.length_take] at hl
      have := calm_fut (R := R) (A := A) (rs := { dec := rdec, remaining := rremaining.drop want, fut := some (.reading []) }) (r := r) (want := want - (rremaining.take want).length) (List.drop_of_length_le (by omega))
      generalize Layers.pollFutRead R A { dec := rdec, remaining := rremaining.drop want, fut := some (.reading []) } r (want - (rremaining.take want).length) = x at this
      cases this with
      | ready h1 h2 => exact .ready (by rw [List.length_append, h1, List.length_take]; omega) h2
      | pending h1 => exact .pending h1
      | error => exact .error
      | panic => exact .panic
    · rename_i hl
      exact .ready (by rw [List.length_take] at hl ⊢; omega) rfl

/-- Reading plaintext that is there. -/
theorem drive_there {int : Bool} {d : Decryptor} {r : ρ} {n fuel : Nat} {t : Bytes} (hn : n ≤ t.length) :
    Layers.drive (encryptedR R A) int n (fuel + 1) [] ({ dec := d, remaining := t, fut := none }, r) = .ok (t.take n, { dec := d, remaining := t.drop n, fut := none }, r) := by
  unfold Layers.drive
  unfold Layers.fill
  cases n with
  | zero => simp
  | succ n =>
    have hl : (t.take (n + 1)).length = n + 1 := by rw [List.length_take]; omega
    have hp : (encryptedR R A).pollRead ({ dec := d, remaining := t, fut := none }, r) (n + 1) = (.ready (.ok ()), t.take (n + 1), { dec := d, remaining := t.drop (n + 1), fut := none }, r) := by
      simp only [encryptedR, Layers.pollRead]
      rw [if_neg (by omega)]
    simp only [List.length_nil, Nat.sub_zero]
    rw [if_neg (by omega), hp]
    cases ht : t.take (n + 1) with
    | nil => rw [ht] at hl; cases hl
    | cons b bs =>
      rw [ht] at hl
      dsimp only
      rw [List.nil_append, Layers.fill, if_pos (by omega)]

/-! ### Frames -/

theorem length_frame_pos {e : Event} (h : Small e) : 10 ≤ (Wire.frame e).length := by
  obtain ⟨tlb, hlb, hdr, -, g1, g2, g3⟩ := frame_layout h
  rw [g3]
  have := g1.1
  have := g2.1
  simp only [List.length_append]
  omega

/-- A list of frames is read in one way. -/
theorem frames_prefix : ∀ {done es : List Event} {x : Bytes}, (∀ e ∈ done, Small e) → (∀ e ∈ es, Small e) → framesOf done ++ x = framesOf es → ∃ es', es = done ++ es' ∧ x = framesOf es' := by
  intro done
  induction done with
  | nil => intro es x _ _ h; exact ⟨es, rfl, h⟩
  | cons e done ih =>
    intro es x hd he h
    rw [framesOf_cons, List.append_assoc] at h
    have h1 := fromBytes_frame_append true (hd e (by simp)) (framesOf done ++ x)
    rw [h] at h1
    cases es with
    | nil =>
      have h2 := congrArg List.length h
      have h3 := length_frame_pos (hd e (by simp))
      rw [List.length_append, show (framesOf []).length = 0 from rfl] at h2
      omega
    | cons e' es =>
      rw [framesOf_cons, fromBytes_frame_append true (he e' (by simp))] at h1
      injection h1 with h1
      injection h1 with h1 h2
      subst h1
      obtain ⟨es', g1, g2⟩ := ih (fun e h => hd e (by simp [h])) (fun e h => he e (by simp [h])) h2.symm
      exact ⟨es', by rw [g1]; rfl, g2⟩

theorem framesOf_append (a b : List Event) : framesOf (a ++ b) = framesOf a ++ framesOf b := by simp [framesOf]

/-! ### Reading events -/

/-- The layer deciphers nothing but frames, of events with `P`. -/
structure OnlyFrames {closed : Bool} (V : Robust (encryptedR R A) closed) (P : Nat → Event → Prop) : Prop where
  frames : ∀ {s h}, V.ok s h → ∃ es : List Event, (∀ e ∈ es, Small e) ∧ (∀ (i : Nat) (e : Event), es[i]? = some e → P i e) ∧ h ++ s.1.remaining = framesOf es
  calm : ∀ {s h}, V.ok s h → Calm s

/-- What reading can end with. -/
def EndsWith (closed : Bool) {α : Type} (o : Outcome α) : Prop := o = .err (.io .invalidData) ∨ (o = .err (.io .unexpectedEof) ∧ closed = true) ∨ o = .hang

variable {closed : Bool} {V : Robust (encryptedR R A) closed} {P : Nat → Event → Prop}

/-- The first 8 bytes of an event. -/
theorem OnlyFrames.first (F : OnlyFrames V P) {done : List Event} (hd : ∀ e ∈ done, Small e) : ∀ (fuel : Nat) {s : ReadStream × ρ}, V.ok s (framesOf done) →
    EndsWith closed (Layers.drive (encryptedR R A) true 8 fuel [] s) ∨ ∃ bs s', Layers.drive (encryptedR R A) true 8 fuel [] s = .ok (bs, s') ∧ bs.length = 8 ∧ s'.1.fut = none ∧ V.ok s' (framesOf done ++ bs) := by
  intro fuel
  induction fuel with
  | zero => intro s _; exact .inl (.inr (.inr rfl))
  | succ fuel ih =>
    intro s hs
    have hr := V.read (want := 8) hs (by omega)
    have hc := calm_read (R := R) (A := A) (want := 8) (F.calm hs)
    have hp : (encryptedR R A).pollRead s 8 = Layers.pollRead R A s 8 := rfl
    rw [← hp] at hc
    unfold Layers.drive
    unfold Layers.fill
    rw [if_neg (by simp)]
    simp only [List.length_nil, Nat.sub_zero]
    generalize (encryptedR R A).pollRead s 8 = x at hr hc
    cases hr with
    | error he =>
      left
      rcases he with ⟨rfl, he⟩ | ⟨rfl, -⟩
      · exact .inr (.inl ⟨rfl, he⟩)
      · exact .inl rfl
    | @ready bs s' h1 h2 h3 =>
      cases hc with
      | ready h4 h5 =>
        right
        refine ⟨bs, s', ?_, h4, h5, h1⟩
        cases bs with
        | nil => cases h4
        | cons b bs =>
          dsimp only
          rw [List.nil_append, Layers.fill, if_pos (by omega)]
    | @pending b bs s' h1 h2 h3 =>
      cases hc with
      | pending h4 =>
        obtain ⟨es, g1, g2, g3⟩ := F.frames h1
        rw [h4, List.append_nil] at g3
        obtain ⟨es', i1, i2⟩ := frames_prefix hd g1 g3
        have hbs : bs = [] := by
          cases es' with
          | nil => rw [i2]; rfl
          | cons e es' =>
            exfalso
            have := length_frame_pos (g1 e (by rw [i1]; simp))
            rw [i2, framesOf_cons, List.length_append] at h2
            omega
        subst hbs
        rw [List.append_nil] at h1
        dsimp only
        cases b with
        | true => exact ih h1
        | false => exact .inl (.inr (.inr rfl))

/-- An event. -/
theorem OnlyFrames.event (F : OnlyFrames V P) (checks : Bool) {done : List Event} (hd : ∀ e ∈ done, Small e) {s : ReadStream × ρ} (hs : V.ok s (framesOf done)) :
    (EndsWith closed (Event.fromAsyncRead (source (encryptedR R A)) checks s)) ∨
    ∃ e s', Event.fromAsyncRead (source (encryptedR R A)) checks s = .ok (e, s') ∧ Small e ∧ P done.length e ∧ V.ok s' (framesOf (done ++ [e])) := by
  have hfirst : (source (encryptedR R A)).readInt 8 s = Layers.drive (encryptedR R A) true 8 (((encryptedR R A).base s).chunks.length + 1) [] s := rfl
  rcases F.first hd (((encryptedR R A).base s).chunks.length + 1) hs with h | ⟨bs, s', h1, h2, h3, h4⟩
  · left
    unfold Event.fromAsyncRead
    rw [hfirst]
    rcases h with h | ⟨h, h'⟩ | h
    · rw [h]; exact .inl rfl
    · rw [h]; exact .inr (.inl ⟨rfl, h'⟩)
    · rw [h]; exact .inr (.inr rfl)
  · right
    rw [← hfirst] at h1
    obtain ⟨⟨d, rem, fut⟩, r⟩ := s'
    dsimp only at h3
    subst h3
    obtain ⟨es, g1, g2, g3⟩ := F.frames h4
    rw [List.append_assoc] at g3
    obtain ⟨es', i1, i2⟩ := frames_prefix hd g1 g3
    dsimp only at i2
    cases es' with
    | nil =>
      have := congrArg List.length i2
      rw [List.length_append, show (framesOf []).length = 0 from rfl] at this
      omega
    | cons e es' =>
      have he : Small e := g1 e (by rw [i1]; simp)
      have hl := length_frame_pos he
      rw [framesOf_cons] at i2
      -- the rest is there
      have hfb := fromBytes_frame_append checks he (framesOf es')
      obtain ⟨s'', j1, j2⟩ := fromAsyncRead_rel (S := source (encryptedR R A)) (T := byteSource) (fun (a : ReadStream × ρ) (t : Bytes) => a = ({ dec := d, remaining := t, fut := none }, r))
        (by
          rintro n a t x t' - rfl h
          change readExact n t = _ at h
          unfold readExact at h
          split at h
          · rename_i hn
            simp only [Outcome.ok.injEq, Prod.mk.injEq] at h
            obtain ⟨rfl, rfl⟩ := h
            exact ⟨_, drive_there hn, rfl⟩
          · cases h)
        (by
          rintro n a t x t' rfl h
          change readExact n t = _ at h
          unfold readExact at h
          split at h
          · rename_i hn
            simp only [Outcome.ok.injEq, Prod.mk.injEq] at h
            obtain ⟨rfl, rfl⟩ := h
            exact ⟨_, drive_there hn, rfl⟩
          · cases h)
        (checks := checks) (s := ({ dec := d, remaining := bs ++ rem, fut := none }, r)) (t := bs ++ rem) rfl (by rw [i2]; exact hfb)
      subst j2
      have hsame : Event.fromAsyncRead (source (encryptedR R A)) checks s = Event.fromAsyncRead (source (encryptedR R A)) checks ({ dec := d, remaining := bs ++ rem, fut := none }, r) := by
        unfold Event.fromAsyncRead
        rw [h1]
        have : (source (encryptedR R A)).readInt 8 ({ dec := d, remaining := bs ++ rem, fut := none }, r) = .ok (bs, { dec := d, remaining := rem, fut := none }, r) := by
          refine (drive_there (by rw [List.length_append]; omega)).trans ?_
          rw [← h2, List.take_left, List.drop_left]
        rw [this]
      refine ⟨e, _, hsame.trans j1, he, g2 _ _ (by rw [i1]; simp), ?_⟩
      -- what has been read
      have hbs : bs = (Wire.frame e).take 8 := by
        have := congrArg (List.take 8) i2
        rw [← h2, List.take_left, h2, List.take_append_of_le_length (by omega)] at this
        exact this
      have hrem : rem = (Wire.frame e).drop 8 ++ framesOf es' := by
        have := congrArg (List.drop 8) i2
        rw [← h2, List.drop_left, h2, List.drop_append_of_le_length (by omega)] at this
        exact this
      have hlen : ((Wire.frame e).drop 8).length = (Wire.frame e).length - 8 := by rw [List.length_drop]
      have hv := V.read (want := (Wire.frame e).length - 8) h4 (by omega)
      have hp : (encryptedR R A).pollRead ({ dec := d, remaining := rem, fut := none }, r) ((Wire.frame e).length - 8) = (.ready (.ok ()), (Wire.frame e).drop 8, { dec := d, remaining := framesOf es', fut := none }, r) := by
        simp only [encryptedR, Layers.pollRead]
        rw [hrem, if_neg (by rw [← hlen, List.take_left]; omega), ← hlen, List.take_left, List.drop_left]
      rw [hp] at hv
      cases hv with
      | ready k1 k2 k3 =>
        rw [hbs, List.append_assoc, List.take_append_drop] at k1
        rw [framesOf_append]
        simpa [framesOf] using k1

/-- The read loop. -/
theorem OnlyFrames.loop (F : OnlyFrames V P) (checks : Bool) {N : Nat} (hN : ∀ i e, P i e → i < N) : ∀ (fuel : Nat) {done : List Event} {s : ReadStream × ρ}, (∀ e ∈ done, Small e) → V.ok s (framesOf done) → N < done.length + fuel →
    ∃ es o, readLoop (source (encryptedR R A)) checks fuel s = (es, o) ∧ (∀ (i : Nat) (e : Event), es[i]? = some e → P (done.length + i) e) ∧ EndsWith closed o := by
  intro fuel
  induction fuel with
  | zero =>
    intro done s hd hs hf
    exfalso
    obtain ⟨es, g1, g2, g3⟩ := F.frames hs
    obtain ⟨es', i1, -⟩ := frames_prefix hd g1 g3
    have := hN N done[N] (g2 _ _ (by rw [i1, List.getElem?_append_left (by omega)]; exact List.getElem?_eq_getElem (by omega)))
    omega
  | succ fuel ih =>
    intro done s hd hs hf
    unfold readLoop
    rcases F.event checks hd hs with h | ⟨e, s', h1, h2, h3, h4⟩
    · rcases h with h | ⟨h, h'⟩ | h
      · rw [h]; exact ⟨[], _, rfl, by simp, .inl rfl⟩
      · rw [h]; exact ⟨[], _, rfl, by simp, .inr (.inl ⟨rfl, h'⟩)⟩
      · rw [h]; exact ⟨[], _, rfl, by simp, .inr (.inr rfl)⟩
    · rw [h1]
      obtain ⟨es, o, g1, g2, g3⟩ := ih (done := done ++ [e]) (by simpa [or_imp, forall_and] using ⟨hd, h2⟩) h4 (by rw [List.length_append, List.length_singleton]; omega)
      refine ⟨e :: es, o, by simp only [g1], fun i e' hi => ?_, g3⟩
      cases i with
      | zero =>
        simp only [List.getElem?_cons_zero, Option.some.injEq] at hi
        subst hi
        exact h3
      | succ i =>
        have := g2 i e' (by simpa using hi)
        rw [List.length_append, List.length_singleton] at this
        rwa [show done.length + 1 + i = done.length + (i + 1) by omega] at this

end
end Bromine.Layers
