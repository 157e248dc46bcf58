import Verif.Model.EventId
import Verif.Model.Event
/-
C14 (event ids) and C15 (event constructors).
-/
namespace Bromine.Props
open Bromine

/-- The low 32 bits of an id are those of the counter. -/
theorem eventId_low (now : Now) (c : UInt64) : (eventId now c).toNat % 2 ^ 32 = c.toNat % 2 ^ 32 := by
  unfold eventId
  rw [UInt64.toNat_or, UInt64.toNat_or, Nat.or_mod_two_pow, Nat.or_mod_two_pow]
  have h : ∀ (x : UInt64) (k : UInt64), 32 ≤ k.toNat → k.toNat < 64 → (x <<< k).toNat % 2 ^ 32 = 0 := by
    intro x k h1 h2
    rw [UInt64.toNat_shiftLeft, Nat.mod_eq_of_lt h2, Nat.shiftLeft_eq]
    obtain ⟨d, hd⟩ := Nat.exists_eq_add_of_le h1
    rw [hd, Nat.pow_add, ← Nat.mul_assoc, Nat.mul_right_comm]
    rw [Nat.mod_mod_of_dvd _ (by exact ⟨2 ^ 32, by decide⟩)]
    exact Nat.mul_mod_left _ _
  rw [h _ _ (by decide) (by decide), h _ _ (by decide) (by decide)]
  simp

/-- In every execution, the `i`-th id handed out ends in `i` modulo 2^32. -/
theorem idgen_invariant (ops : List IdGen.Op) :
    (IdGen.run {} ops).counter.toNat = (IdGen.run {} ops).out.length % 2 ^ 64 ∧
    ∀ i t x, (IdGen.run {} ops).out[i]? = some (t, x) → x.toNat % 2 ^ 32 = i % 2 ^ 32 := by
  suffices h : ∀ (s : IdGen.State), (s.counter.toNat = s.out.length % 2 ^ 64 ∧
      ∀ i t x, s.out[i]? = some (t, x) → x.toNat % 2 ^ 32 = i % 2 ^ 32) →
      ((IdGen.run s ops).counter.toNat = (IdGen.run s ops).out.length % 2 ^ 64 ∧
      ∀ i t x, (IdGen.run s ops).out[i]? = some (t, x) → x.toNat % 2 ^ 32 = i % 2 ^ 32) from
    h {} ⟨rfl, by simp⟩
  induction ops with
  | nil => exact fun s h => h
  | cons op ops ih =>
    intro s hs
    refine ih _ ?_
    cases op with
    | clock t now => cases now <;> exact hs
    | fetch t =>
      unfold IdGen.step
      cases hp : s.pending t with
      | none => simpa [hp] using hs
      | some now =>
        obtain ⟨h1, h2⟩ := hs
        simp only [hp]
        refine ⟨?_, fun i u x hi => ?_⟩
        · rw [UInt64.toNat_add, h1]; simp
        · by_cases hlt : i < s.out.length
          · rw [List.getElem?_append_left hlt] at hi
            exact h2 i u x hi
          · rw [List.getElem?_append_right (by omega)] at hi
            have hi0 : i = s.out.length := by
              by_cases h0 : i - s.out.length = 0
              · omega
              · obtain ⟨k, hk⟩ := Nat.exists_eq_succ_of_ne_zero h0
                rw [hk] at hi; simp at hi
            subst hi0
            simp only [Nat.sub_self, List.getElem?_cons_zero, Option.some.injEq, Prod.mk.injEq] at hi
            rw [← hi.2, eventId_low, h1]
            omega

/-- C14: whatever the clock does, two calls of one process that return the same id are a multiple of 2^32 calls apart. -/
theorem C14_repeats_are_apart (ops : List IdGen.Op) (i j : Nat) (t u : Nat) (x : UInt64)
    (hx : (IdGen.run {} ops).out[i]? = some (t, x)) (hy : (IdGen.run {} ops).out[j]? = some (u, x)) (hij : i ≤ j) : 2 ^ 32 ∣ j - i := by
  have h := (idgen_invariant ops).2
  have h1 := h i t x hx
  have h2 := h j u x hy
  omega

/-- C14: whatever the clock does (it may jump, stand still, or differ between threads) and
however threads interleave, two ids handed out fewer than 2^32 calls apart are different. In particular all
the ids among the first 2^32 of a process are. For calls 2^32 or more apart see `C14_repeats_are_apart` and `C14_violated`. -/
theorem C14_ids_unique (ops : List IdGen.Op) (i j : Nat) (t u : Nat) (x y : UInt64)
    (hx : (IdGen.run {} ops).out[i]? = some (t, x)) (hy : (IdGen.run {} ops).out[j]? = some (u, y))
    (hij : i < j) (hnear : j < i + 2 ^ 32) : x ≠ y := by
  rintro rfl
  have h := (idgen_invariant ops).2
  have h1 := h i t x hx
  have h2 := h j u x hy
  omega

/-- C14 for whole processes: with at most 2^32 events, no id occurs twice. -/
theorem C14_nodup (ops : List IdGen.Op) (h : (IdGen.run {} ops).out.length ≤ 2 ^ 32) :
    ((IdGen.run {} ops).out.map Prod.snd).Nodup := by
  rw [List.nodup_iff_pairwise_ne, List.pairwise_iff_getElem]
  intro i j hi hj hij
  simp only [List.length_map] at hi hj
  simp only [List.getElem_map]
  exact C14_ids_unique ops i j _ _ _ _ (List.getElem?_eq_getElem hi) (List.getElem?_eq_getElem hj)
    hij (by omega)

/-- Three threads; the clock runs backwards between them. -/
example : (IdGen.run {} [.clock 0 (some ⟨100, 5⟩), .clock 1 (some ⟨7, 999⟩), .fetch 1, .fetch 0,
    .clock 2 (some ⟨7, 999⟩), .fetch 2]).out.length = 3 := rfl

/-- C14 is violated for calls that are 2^32 apart: the counter then spills into the millisecond bits. With
the clock at 0 ms for call number 2^32 and at 1 ms for call number 0 (same second modulo 65535, e.g. 18.2
hours later) the ids coincide. -/
theorem C14_violated :
    eventId ⟨65535, 0⟩ (UInt64.ofNat (2 ^ 32)) = eventId ⟨0, 1⟩ (UInt64.ofNat 0) := by decide +kernel

/-- The ops for `n` calls with clock `f`. -/
def calls (f : Nat → Now) (n : Nat) : List IdGen.Op :=
  (List.range n).flatMap fun i => [.clock 0 (some (f i)), .fetch 0]

theorem calls_run (f : Nat → Now) (n : Nat) :
    (IdGen.run {} (calls f n)).out = (List.range n).map (fun i => (0, eventId (f i) (UInt64.ofNat i))) ∧
    (IdGen.run {} (calls f n)).counter = UInt64.ofNat n := by
  induction n with
  | zero => exact ⟨rfl, rfl⟩
  | succ n ih =>
    have hc : calls f (n + 1) = calls f n ++ [.clock 0 (some (f n)), .fetch 0] := by
      simp [calls, List.range_succ]
    have hr : IdGen.run {} (calls f (n + 1))
        = IdGen.step (IdGen.step (IdGen.run {} (calls f n)) (.clock 0 (some (f n)))) (.fetch 0) := by
      rw [hc]; simp [IdGen.run]
    rw [hr]
    constructor
    · simp [IdGen.step, ih.1, ih.2, List.range_succ]
    · simp only [IdGen.step, ih.2, if_true]
      apply UInt64.toNat_inj.mp
      rw [UInt64.toNat_add]
      simp

/-- C14, the full property refuted on an execution of the process: there is an execution in which two
different calls return the same id. -/
theorem C14_violated_execution : ∃ (ops : List IdGen.Op) (i j t u : Nat) (x : UInt64), i < j ∧
    (IdGen.run {} ops).out[i]? = some (t, x) ∧ (IdGen.run {} ops).out[j]? = some (u, x) := by
  refine ⟨calls (fun i => if i = 0 then ⟨0, 1⟩ else ⟨65535, 0⟩) (2 ^ 32 + 1), 0, 2 ^ 32, 0, 0,
    eventId ⟨0, 1⟩ (UInt64.ofNat 0), by decide, ?_, ?_⟩
  · rw [(calls_run _ _).1]; simp
  · rw [(calls_run _ _).1, List.getElem?_map, List.getElem?_range (by decide)]
    simp only [Option.map_some, Option.some.injEq, Prod.mk.injEq, true_and]
    exact C14_violated

/-- C14: the clock before 1970 panics the caller, and nothing else does; then no id is handed out. -/
theorem C14_clock_before_epoch (s : IdGen.State) (op : IdGen.Op) :
    ((IdGen.step s op).panics = s.panics + 1 ↔ ∃ t, op = .clock t none) ∧ ((IdGen.step s op).panics = s.panics ∨ (IdGen.step s op).panics = s.panics + 1) ∧
    ∀ t, (IdGen.step s (.clock t none)).out = s.out ∧ (IdGen.step s (.clock t none)).counter = s.counter := by
  refine ⟨?_, ?_, fun _ => ⟨rfl, rfl⟩⟩
  · rcases op with ⟨t, _ | now⟩ | t
    · simp [IdGen.step]
    · simp [IdGen.step]
    · simp only [IdGen.step]; split <;> simp
  · rcases op with ⟨t, _ | now⟩ | t
    · simp [IdGen.step]
    · simp [IdGen.step]
    · simp only [IdGen.step]; split <;> simp

/-! ### C15 constructors -/

/-- What a constructor for events of type `ty` is expected to build. -/
def Builds (e : Event) (ty : EventType) (ns : Option String) (name : String) (data : Bytes) (ref : Option UInt64) :
    Prop :=
  e.eventType = ty ∧ e.ns = ns ∧ e.name = name ∧ e.dataRaw = data ∧ e.referenceId = ref

/-- C15 for `initiator`, `response` and `error`, every argument. The fourth constructor is `C15_end_violated`. -/
theorem C15_constructors (id ref : UInt64) (ns : Option String) (name : String) (data : Bytes) :
    Builds (Event.initiator id ns name data) .initiator ns name data none ∧
    Builds (Event.response id ns name data ref) .response ns name data (some ref) ∧
    Builds (Event.error id ns name data ref) .error ns name data (some ref) ∧
    (Event.initiator id ns name data).id = id ∧ (Event.response id ns name data ref).id = id ∧
    (Event.error id ns name data ref).id = id := by
  simp [Builds, Event.initiator, Event.response, Event.error, Event.new, Event.eventType, Event.ns,
    Event.name, Event.dataRaw, Event.referenceId, Event.id]

/-- C15 is violated by `Event::end`: for no arguments does it build an End event; it builds a Response. -/
theorem C15_end_violated (id ref : UInt64) (ns : Option String) (name : String) (data : Bytes) :
    ¬ Builds (Event.end id ns name data ref) .end ns name data (some ref) ∧
    Builds (Event.end id ns name data ref) .response ns name data (some ref) := by
  simp [Builds, Event.end, Event.new, Event.eventType, Event.ns, Event.name, Event.dataRaw, Event.referenceId]

end Bromine.Props
