import Verif.Lemmas.Event
/- Lemmas on reading frames from chunked transports, truncation and panics. -/
namespace Bromine
open Spec

def flat (cs : List Chunk) : Bytes := (cs.map Chunk.bytes).flatten

@[simp] theorem flat_nil : flat [] = [] := rfl
@[simp] theorem flat_cons (c : Chunk) (cs : List Chunk) : flat (c :: cs) = c.bytes ++ flat cs := rfl

theorem flat_pushRest (r : Bytes) (cs : List Chunk) : flat (pushRest r cs) = r ++ flat cs := by
  cases r <;> simp [pushRest, Chunk.bytes]

/-- What reading `n` bytes from a transport amounts to. -/
def idealRead (closed : Bool) (n : Nat) (r : Bytes) : Outcome (Bytes × Bytes) :=
  if n ≤ r.length then .ok (r.take n, r.drop n)
  else if closed then .err (.io .unexpectedEof) else .hang

theorem idealRead_closed (n : Nat) (r : Bytes) : idealRead true n r = readExact n r := by
  simp [idealRead, readExact]

theorem pollExact_flat (closed : Bool) (n : Nat) (acc : Bytes) (cs : List Chunk) :
    (pollExact closed n acc cs).map (fun p => (p.1, flat p.2))
      = (idealRead closed n (flat cs)).map (fun p => (acc ++ p.1, p.2)) := by
  fun_induction pollExact closed n acc cs with
  | case1 acc cs => simp [idealRead]
  | case2 => simp [idealRead, *]
  | case3 => simp [idealRead, *]
  | case4 acc n cs ih => simpa [Chunk.bytes] using ih
  | case5 n acc b bs cs h =>
    simp only [Outcome.map_ok, flat_cons, Chunk.bytes, flat_pushRest]
    unfold idealRead
    rw [if_pos (by simp only [List.length_append] at *; omega)]
    simp only [Outcome.map_ok]
    rw [List.take_append_of_le_length h, List.drop_append_of_le_length h]
  | case6 n acc b bs cs h ih =>
    rw [ih]
    simp only [flat_cons, Chunk.bytes]
    unfold idealRead
    simp only [Nat.succ_eq_add_one]
    clear ih
    generalize b :: bs = l at *
    generalize n + 1 = N at *
    have hl : (l ++ flat cs).length = l.length + (flat cs).length := by simp
    by_cases hn : N - l.length ≤ (flat cs).length
    · rw [if_pos hn, if_pos (by omega)]
      simp only [Outcome.map_ok, Outcome.ok.injEq, Prod.mk.injEq]
      have e : N = l.length + (N - l.length) := by omega
      constructor
      · conv => rhs; rw [e, List.take_length_add_append]
        simp [List.append_assoc]
      · conv => rhs; rw [e, List.drop_length_add_append]
    · rw [if_neg hn, if_neg (show ¬ N ≤ (l ++ flat cs).length by simp only [List.length_append]; omega)]
      split <;> simp

/-- Two sources behave alike through an abstraction map. -/
structure Source.Sim {σ τ : Type} (S : Source σ) (T : Source τ) (f : σ → τ) : Prop where
  exact : ∀ n s, (S.readExact n s).map (fun p => (p.1, f p.2)) = T.readExact n (f s)
  int : ∀ n s, (S.readInt n s).map (fun p => (p.1, f p.2)) = T.readInt n (f s)

theorem map_bind {α β γ : Type} (x : Outcome α) (k : α → Outcome β) (g : β → γ) :
    (x >>= k).map g = x >>= fun a => (k a).map g := by cases x <;> rfl

theorem bind_map {α β γ : Type} (x : Outcome α) (g : α → β) (k : β → Outcome γ) :
    x.map g >>= k = x >>= fun a => k (g a) := by cases x <;> rfl

theorem fromAsyncRead_sim {σ τ : Type} {S : Source σ} {T : Source τ} {f : σ → τ} (h : S.Sim T f)
    (checks : Bool) (s : σ) :
    (Event.fromAsyncRead S checks s).map (fun p => (p.1, f p.2)) = Event.fromAsyncRead T checks (f s) := by
  unfold Event.fromAsyncRead
  simp only [map_bind, ← h.int, ← h.exact, bind_map, Outcome.pure_eq, Outcome.map_ok]

/-- A source that reads from a byte string; when the bytes run out it is at EOF or silent. -/
def openSource (closed : Bool) : Source Bytes where
  readExact := idealRead closed
  readInt := idealRead closed

theorem openSource_closed : openSource true = byteSource := by
  unfold openSource byteSource
  simp only [Source.mk.injEq]
  exact ⟨funext fun n => funext fun r => idealRead_closed n r,
    funext fun n => funext fun r => idealRead_closed n r⟩

/-- A source that carries the closed flag in its state. -/
def flagSource : Source (Bytes × Bool) where
  readExact := fun n s => (idealRead s.2 n s.1).map (fun p => (p.1, (p.2, s.2)))
  readInt := fun n s => (idealRead s.2 n s.1).map (fun p => (p.1, (p.2, s.2)))

theorem script_sim : scriptSource.Sim flagSource (fun s => (s.bytes, s.closed)) := by
  have key : ∀ n (s : Script),
      (scriptSource.readExact n s).map (fun p => (p.1, (p.2.bytes, p.2.closed)))
        = (idealRead s.closed n s.bytes).map (fun p => (p.1, (p.2, s.closed))) := by
    intro n s
    have := pollExact_flat s.closed n [] s.chunks
    simp only [scriptSource]
    simp only [List.nil_append] at this
    have hb : s.bytes = flat s.chunks := rfl
    rw [hb]
    revert this
    cases pollExact s.closed n [] s.chunks <;> cases idealRead s.closed n (flat s.chunks)
      <;> simp [Script.bytes, flat, Prod.ext_iff]
  exact ⟨key, key⟩

theorem open_sim (closed : Bool) : (openSource closed).Sim flagSource (fun b => (b, closed)) :=
  ⟨fun n s => by simp [openSource, flagSource], fun n s => by simp [openSource, flagSource]⟩

/-- The event read from a transport only depends on the bytes it delivers, not on how they
are cut into chunks. -/
theorem script_read (checks : Bool) (s : Script) :
    (Event.fromAsyncRead scriptSource checks s).map (fun p => (p.1, p.2.bytes, p.2.closed))
      = (Event.fromAsyncRead (openSource s.closed) checks s.bytes).map (fun p => (p.1, p.2, s.closed)) := by
  rw [fromAsyncRead_sim script_sim, ← fromAsyncRead_sim (open_sim s.closed)]

theorem ok_of_openRead {checks closed : Bool} {r : Bytes} {p : Event × Bytes}
    (h : Event.fromAsyncRead (openSource closed) checks r = .ok p) :
    Event.fromBytes checks r = .ok p := by
  have key : ∀ n r (q : Bytes × Bytes), idealRead closed n r = .ok q → readExact n r = .ok q := by
    intro n r q h
    unfold idealRead at h
    unfold readExact
    split at h
    · rename_i hn; rw [if_pos hn]; exact h
    · split at h <;> cases h
  unfold Event.fromAsyncRead at h
  unfold Event.fromBytes Event.fromAsyncRead
  simp only [byteSource, Outcome.bind_eq_ok, openSource] at h ⊢
  obtain ⟨a1, h1, a2, h2, a3, h3, a4, h4, a5, h5, a6, h6, a7, h7, h8⟩ := h
  exact ⟨a1, key _ _ _ h1, a2, key _ _ _ h2, a3, h3, a4, key _ _ _ h4, a5, h5, a6, h6, a7, key _ _ _ h7, h8⟩

theorem openRead_of_ok {checks closed : Bool} {r : Bytes} {p : Event × Bytes}
    (h : Event.fromBytes checks r = .ok p) :
    Event.fromAsyncRead (openSource closed) checks r = .ok p := by
  have key : ∀ n r (q : Bytes × Bytes), readExact n r = .ok q → idealRead closed n r = .ok q := by
    intro n r q h
    unfold readExact at h
    unfold idealRead
    split at h
    · rename_i hn; rw [if_pos hn]; exact h
    · cases h
  unfold Event.fromBytes Event.fromAsyncRead at h
  unfold Event.fromAsyncRead
  simp only [byteSource, Outcome.bind_eq_ok, openSource] at h ⊢
  obtain ⟨a1, h1, a2, h2, a3, h3, a4, h4, a5, h5, a6, h6, a7, h7, h8⟩ := h
  exact ⟨a1, key _ _ _ h1, a2, key _ _ _ h2, a3, h3, a4, key _ _ _ h4, a5, h5, a6, h6, a7, key _ _ _ h7, h8⟩

/-! ### The header parser neither panics nor hangs -/

def Tame {α : Type} (x : Outcome α) : Prop := x ≠ .panic ∧ x ≠ .hang

theorem Tame.bind {α β : Type} {x : Outcome α} {f : α → Outcome β} (hx : Tame x)
    (hf : ∀ a, x = .ok a → Tame (f a)) : Tame (x >>= f) := by
  cases x with
  | ok a => exact hf a rfl
  | err e => simp [Tame]
  | panic => exact absurd rfl hx.1
  | hang => exact absurd rfl hx.2

theorem tame_readExact (n : Nat) (r : Bytes) : Tame (readExact n r) := by
  unfold readExact; split <;> simp [Tame]

theorem tame_ok {α : Type} (a : α) : Tame (Outcome.ok a) := by simp [Tame]
theorem tame_err {α : Type} (e : Error) : Tame (Outcome.err e : Outcome α) := by simp [Tame]

theorem tame_readU8 (r : Bytes) : Tame (readU8 r) := (tame_readExact _ _).bind fun _ _ => tame_ok _
theorem tame_readU16 (r : Bytes) : Tame (readU16 r) := (tame_readExact _ _).bind fun _ _ => tame_ok _
theorem tame_readU32 (r : Bytes) : Tame (readU32 r) := (tame_readExact _ _).bind fun _ _ => tame_ok _
theorem tame_readU64 (r : Bytes) : Tame (readU64 r) := (tame_readExact _ _).bind fun _ _ => tame_ok _
theorem tame_readString (n : Nat) (r : Bytes) : Tame (readString n r) := by
  refine (tame_readExact _ _).bind fun _ _ => ?_
  simp only
  split <;> simp [Tame]

theorem tame_fromRead (r : Bytes) : Tame (EventHeader.fromRead r) := by
  unfold EventHeader.fromRead
  refine Tame.bind ?_ fun _ _ => (tame_readU64 _).bind fun _ _ => (tame_readU8 _).bind fun _ _ => ?_
  · unfold readVersion
    refine (tame_readExact _ _).bind fun _ _ => ?_
    simp only; split <;> simp [Tame]
  · simp only
    split
    · exact tame_err _
    · refine Tame.bind ?_ fun _ _ => (tame_readU16 _).bind fun _ _ => Tame.bind ?_ fun _ _ =>
        Tame.bind ?_ fun _ _ => tame_ok _
      · unfold readRefId
        refine (tame_readU8 _).bind fun _ _ => ?_
        simp only
        split
        · exact tame_ok _
        · split
          · exact (tame_readU64 _).bind fun _ _ => tame_ok _
          · exact tame_err _
      · unfold readNamespace
        split
        · exact (tame_readString _ _).bind fun _ _ => tame_ok _
        · exact tame_ok _
      · unfold readName
        exact (tame_readU16 _).bind fun _ _ => tame_readString _ _

/-! ### Truncated frames -/

theorem bind_eq_of {α β : Type} {x : Outcome α} {y : α} {f : α → Outcome β} (h : x = .ok y) :
    (x >>= f) = f y := by subst h; rfl

/-- Reading a strict prefix of a frame runs out of bytes. -/
theorem truncated_read {checks closed : Bool} {e : Event} {ver extra frame p q : Bytes}
    (ha : Allocatable e) (hf : FrameLayout e ver extra frame) (hp : frame = p ++ q) (hq : q ≠ []) :
    Event.fromAsyncRead (openSource closed) checks p
      = if closed then .err (.io .unexpectedEof) else .hang := by
  have short : ∀ {n : Nat} {r : Bytes}, r.length < n →
      idealRead closed n r = if closed then .err (.io .unexpectedEof) else .hang := by
    intro n r h; unfold idealRead; rw [if_neg (by omega)]
  have long : ∀ {n : Nat} {a r : Bytes}, a.length = n → idealRead closed n (a ++ r) = .ok (a, r) := by
    intro n a r h; subst h; simp [idealRead]
  obtain ⟨tlb, hlb, hdr, hlay, htl, hhl, rfl⟩ := hf
  unfold Allocatable at ha
  obtain ⟨hl1, hl2⟩ := bigEndian_iff.mp hhl
  obtain ⟨ht1, ht2⟩ := bigEndian_iff.mp htl
  have hv1 := beVal_lt tlb
  have hv2 := beVal_lt hlb
  rw [ht1] at hv1
  rw [hl1] at hv2
  have e1 : (UInt16.ofNat (beVal hlb)).toNat = beVal hlb := toNat16 (by omega)
  have e2 : (UInt64.ofNat (beVal tlb)).toNat = beVal tlb := toNat64 (by omega)
  have e3 : (UInt64.ofNat (beVal hlb)).toNat = beVal hlb := toNat64 (by omega)
  have hq' : 0 < q.length := List.length_pos_iff.mpr hq
  have hlen := congrArg List.length hp
  simp only [List.length_append] at hlen
  unfold Event.fromAsyncRead
  simp only [openSource]
  have fin : ∀ {α β : Type} (f : α → Outcome β),
      ((if closed then (.err (.io .unexpectedEof) : Outcome α) else .hang) >>= f)
        = if closed then .err (.io .unexpectedEof) else .hang := by
    intro α β f; cases closed <;> rfl
  by_cases c1 : p.length < 8
  · rw [short c1, fin]
  · have hp' : tlb ++ (hlb ++ (hdr ++ e.data)) = p ++ q := by
      rw [← hp]; simp [List.append_assoc]
    obtain ⟨p1, rfl⟩ : ∃ p1, p = tlb ++ p1 := by
      refine (List.append_eq_append_iff.mp hp').elim ?_ ?_
      · rintro ⟨a, h, _⟩; exact ⟨a, h⟩
      · rintro ⟨a, h, _⟩
        have := congrArg List.length h
        simp only [List.length_append] at this
        refine ⟨[], ?_⟩
        have : a = [] := List.length_eq_zero_iff.mp (by omega)
        subst this; simpa using h.symm
    rw [long ht1]
    simp only [Outcome.bind_ok]
    rw [List.append_assoc] at hp'
    have hp' := List.append_cancel_left hp'
    simp only [List.length_append] at hlen
    by_cases c2 : p1.length < 2
    · rw [short c2, fin]
    · obtain ⟨p2, rfl⟩ : ∃ p2, p1 = hlb ++ p2 := by
        refine (List.append_eq_append_iff.mp hp').elim ?_ ?_
        · rintro ⟨a, h, _⟩; exact ⟨a, h⟩
        · rintro ⟨a, h, _⟩
          have := congrArg List.length h
          simp only [List.length_append] at this
          refine ⟨[], ?_⟩
          have : a = [] := List.length_eq_zero_iff.mp (by omega)
          subst this; simpa using h.symm
      rw [long hl1]
      simp only [Outcome.bind_ok, e1]
      rw [List.append_assoc] at hp'
      have hp' := List.append_cancel_left hp'
      simp only [List.length_append] at hlen
      have hsub : subU64 checks (UInt64.ofNat (beVal tlb)) (UInt64.ofNat (beVal hlb))
          = .ok (UInt64.ofNat (beVal tlb) - UInt64.ofNat (beVal hlb)) := by
        unfold subU64
        rw [if_neg]
        simp only [Bool.and_eq_true, decide_eq_true_eq, not_and, UInt64.lt_iff_toNat_lt, e2, e3]
        intro _; omega
      rw [hsub]
      simp only [Outcome.bind_ok]
      by_cases c3 : p2.length < hdr.length
      · rw [short (by omega), fin]
      · obtain ⟨p3, rfl⟩ : ∃ p3, p2 = hdr ++ p3 := by
          refine (List.append_eq_append_iff.mp hp').elim ?_ ?_
          · rintro ⟨a, h, _⟩; exact ⟨a, h⟩
          · rintro ⟨a, h, _⟩
            have := congrArg List.length h
            simp only [List.length_append] at this
            refine ⟨[], ?_⟩
            have : a = [] := List.length_eq_zero_iff.mp (by omega)
            subst this; simpa using h.symm
        rw [long hl2]
        simp only [Outcome.bind_ok]
        rw [fromRead_eq_ok.mpr ⟨ver, hlay⟩]
        have hdl : (UInt64.ofNat (beVal tlb) - UInt64.ofNat (beVal hlb)).toNat = e.data.length := by
          rw [UInt64.toNat_sub, e2, e3]; omega
        simp only [Outcome.bind_ok, hdl]
        have hal : allocVec e.data.length = .ok () := by
          unfold allocVec isizeMax; rw [if_pos (by omega)]
        rw [hal]
        simp only [Outcome.bind_ok]
        simp only [List.length_append] at hlen
        rw [short (by omega), fin]

/-! ### The read loop -/

theorem readLoop_step {σ : Type} {S : Source σ} {checks : Bool} {s s' : σ} {e : Event} (fuel : Nat)
    (h : Event.fromAsyncRead S checks s = .ok (e, s')) :
    readLoop S checks (fuel + 1) s
      = (e :: (readLoop S checks fuel s').1, (readLoop S checks fuel s').2) := by
  simp [readLoop, h]

/-- Simulated sources give the same loop results. -/
theorem readLoop_sim {σ τ : Type} {S : Source σ} {T : Source τ} {f : σ → τ} (h : S.Sim T f)
    (checks : Bool) (fuel : Nat) (s : σ) :
    readLoop S checks fuel s = readLoop T checks fuel (f s) := by
  induction fuel generalizing s with
  | zero => rfl
  | succ n ih =>
    have hs := fromAsyncRead_sim h checks s
    unfold readLoop
    rw [← hs]
    cases Event.fromAsyncRead S checks s with
    | ok p => simp [ih]
    | err e => rfl
    | panic => rfl
    | hang => rfl

theorem readLoop_script (checks : Bool) (fuel : Nat) (s : Script) :
    readLoop scriptSource checks fuel s = readLoop (openSource s.closed) checks fuel s.bytes := by
  rw [readLoop_sim script_sim, ← readLoop_sim (open_sim s.closed)]

theorem versionString_three (a b c : UInt8) :
    versionString [a, b, c] = s!"{a.toNat}.{b.toNat}.{c.toNat}" := by
  unfold versionString
  simp only [List.foldl_cons, List.foldl_nil]
  apply String.toList_inj.mp
  have h : ("." : String).toList = ['.'] := rfl
  have h2 : (toString "." : String) = "." := rfl
  simp only [h2, String.toList_append, String.toList_ofList, h, String.empty_append]
  rw [List.dropLast_concat]

theorem bind_eq_panic {α β : Type} {x : Outcome α} {f : α → Outcome β} :
    (x >>= f) = .panic ↔ x = .panic ∨ ∃ a, x = .ok a ∧ f a = .panic := by
  cases x <;> simp

theorem bind_eq_hang {α β : Type} {x : Outcome α} {f : α → Outcome β} :
    (x >>= f) = .hang ↔ x = .hang ∨ ∃ a, x = .ok a ∧ f a = .hang := by
  cases x <;> simp

theorem idealRead_ne_panic {closed : Bool} {n : Nat} {r : Bytes} : idealRead closed n r ≠ .panic := by
  unfold idealRead; split
  · simp
  · split <;> simp

theorem idealRead_eq_ok {closed : Bool} {n : Nat} {r a s : Bytes} :
    idealRead closed n r = .ok (a, s) ↔ r = a ++ s ∧ a.length = n := by
  rw [← readExact_eq_ok]
  unfold idealRead readExact
  split
  · rfl
  · split <;> simp

end Bromine
