import Verif.Model.Wire
import Verif.Props.Frame
/-
C18, C19: concurrent emitters on one connection.
-/
namespace Bromine.Props
open Bromine Bromine.Spec Bromine.Wire

/-- The number of bytes of its frame that task `t` has put on the wire. -/
def written (s : State) (t : Nat) : Nat :=
  match s.tasks t with
  | some (.writing _ n) => n
  | some (.done e) => (frame e).length
  | some (.gone _ n) => n
  | _ => 0

structure WireInv (s : State) : Prop where
  wire : s.wire = (s.log.map fun x => (frame x.2).take (written s x.1)).flatten
  nodup : (s.log.map Prod.fst).Nodup
  event : ∀ t e, (t, e) ∈ s.log → (∃ n, s.tasks t = some (.writing e n)) ∨ s.tasks t = some (.done e) ∨
    ∃ n, s.tasks t = some (.gone e n)
  logged : ∀ t, (∃ e n, s.tasks t = some (.writing e n)) ∨ (∃ e, s.tasks t = some (.done e)) → ∃ e, (t, e) ∈ s.log
  le : ∀ t e n, s.tasks t = some (.writing e n) ∨ s.tasks t = some (.gone e n) → n ≤ (frame e).length
  unlogged : ∀ t e n, s.tasks t = some (.gone e n) → (t, e) ∉ s.log → n = 0
  holder : ∀ t, s.lock = some t ↔ ∃ e n, s.tasks t = some (.writing e n)
  last : ∀ t e, (t, e) ∈ s.log → s.lock = some t → s.log.getLast? = some (t, e)

theorem inv_init : WireInv {} where
  wire := rfl
  nodup := by simp
  event := by simp
  logged := by simp
  le := by simp
  unlogged := by simp
  holder := by simp
  last := by simp

theorem written_set_ne {s : State} {t u : Nat} {x : Option Stage} {l : Option Nat} {w : Bytes}
    {lg : List (Nat × Event)} (h : u ≠ t) :
    written { tasks := set s.tasks t x, lock := l, wire := w, log := lg } u = written s u := by
  simp [written, Wire.set, h]

theorem wire_congr {lg : List (Nat × Event)} {s s' : State}
    (h : ∀ t e, (t, e) ∈ lg → written s t = written s' t) :
    (lg.map fun x => (frame x.2).take (written s x.1)).flatten
      = (lg.map fun x => (frame x.2).take (written s' x.1)).flatten := by
  congr 1
  apply List.map_congr_left
  rintro ⟨t, e⟩ hx
  simp only [h t e hx]

theorem inv_step {s s' : State} {op : Op} (h : WireInv s) (hs : step s op = some s') : WireInv s' := by
  cases op with
  | start t e =>
    simp only [step] at hs
    split at hs
    · rename_i ht
      injection hs with hs
      subst hs
      have hnl : ∀ e', (t, e') ∉ s.log := by
        intro e' he'
        rcases h.event t e' he' with ⟨n, h1⟩ | h1 | ⟨n, h1⟩ <;> simp [ht] at h1
      have hne : ∀ u e', (u, e') ∈ s.log → u ≠ t := by
        rintro u e' hu rfl; exact hnl e' hu
      refine ⟨?_, h.nodup, ?_, ?_, ?_, ?_, ?_, h.last⟩
      · rw [h.wire]
        exact wire_congr fun u e' hu => (written_set_ne (hne u e' hu)).symm
      · intro u e' hu
        simpa [Wire.set, hne u e' hu] using h.event u e' hu
      · intro u hu
        by_cases hut : u = t
        · subst hut; simp [Wire.set] at hu
        · exact h.logged u (by simpa [Wire.set, hut] using hu)
      · intro u e' n hu
        by_cases hut : u = t
        · subst hut; simp [Wire.set] at hu
        · exact h.le u e' n (by simpa [Wire.set, hut] using hu)
      · intro u e' n hu
        by_cases hut : u = t
        · subst hut; simp [Wire.set] at hu
        · exact h.unlogged u e' n (by simpa [Wire.set, hut] using hu)
      · intro u
        by_cases hut : u = t
        · subst hut
          have := h.holder u
          simp only [ht] at this
          simpa [Wire.set] using this
        · simpa [Wire.set, hut] using h.holder u
    · cases hs
  | lock t =>
    simp only [step] at hs
    split at hs
    · rename_i e ht hl
      injection hs with hs
      subst hs
      have hnl : ∀ e', (t, e') ∉ s.log := by
        intro e' he'
        rcases h.event t e' he' with ⟨n, h1⟩ | h1 | ⟨n, h1⟩ <;> simp [ht] at h1
      have hne : ∀ u e', (u, e') ∈ s.log → u ≠ t := by
        rintro u e' hu rfl; exact hnl e' hu
      refine ⟨?_, ?_, ?_, ?_, ?_, ?_, ?_, ?_⟩
      · simp only [List.map_append, List.flatten_append, List.map_cons, List.map_nil, List.flatten_cons,
          List.flatten_nil, List.append_nil]
        have hz : written { s with tasks := set s.tasks t (some (.writing e 0)), lock := some t,
                                   log := s.log ++ [(t, e)] } t = 0 := by
          simp [written, Wire.set]
        rw [hz, List.take_zero, List.append_nil, h.wire]
        exact wire_congr fun u e' hu => (written_set_ne (hne u e' hu)).symm
      · rw [List.map_append, List.nodup_append]
        refine ⟨h.nodup, by simp, ?_⟩
        intro a ha b hb
        simp only [List.map_cons, List.map_nil, List.mem_singleton] at hb
        subst hb
        obtain ⟨⟨u, e'⟩, hu, rfl⟩ := List.mem_map.1 ha
        exact hne u e' hu
      · intro u e' hu
        rcases List.mem_append.1 hu with hu | hu
        · simpa [Wire.set, hne u e' hu] using h.event u e' hu
        · simp only [List.mem_singleton, Prod.mk.injEq] at hu
          obtain ⟨rfl, rfl⟩ := hu
          exact Or.inl ⟨0, by simp [Wire.set]⟩
      · intro u hu
        by_cases hut : u = t
        · subst hut; exact ⟨e, by simp⟩
        · obtain ⟨e', he'⟩ := h.logged u (by simpa [Wire.set, hut] using hu)
          exact ⟨e', by simp [he']⟩
      · intro u e' n hu
        by_cases hut : u = t
        · subst hut
          simp [Wire.set] at hu
          omega
        · exact h.le u e' n (by simpa [Wire.set, hut] using hu)
      · intro u e' n hu hn
        by_cases hut : u = t
        · subst hut; simp [Wire.set] at hu
        · exact h.unlogged u e' n (by simpa [Wire.set, hut] using hu) (by simp at hn; exact hn.1)
      · intro u
        by_cases hut : u = t
        · subst hut; simp [Wire.set]
        · have := h.holder u
          rw [hl] at this
          simp only [Wire.set, hut, if_false]
          rw [← this]
          simp [Ne.symm hut]
      · intro u e' hu hlk
        simp only [Option.some.injEq] at hlk
        subst hlk
        rcases List.mem_append.1 hu with hu | hu
        · exact absurd rfl (hne _ e' hu)
        · simp only [List.mem_singleton, Prod.mk.injEq] at hu
          obtain ⟨_, rfl⟩ := hu
          simp
    · cases hs
  | write t n =>
    simp only [step] at hs
    split at hs
    · rename_i e k ht
      split at hs
      · rename_i hk
        injection hs with hs
        subst hs
        have hlk := (h.holder t).2 ⟨e, k, ht⟩
        obtain ⟨e0, hin⟩ := h.logged t (Or.inl ⟨e, k, ht⟩)
        have he0 : e0 = e := by
          rcases h.event t e0 hin with ⟨n, h1⟩ | h1 | ⟨n, h1⟩ <;> simp [ht] at h1
          exact h1.1.symm
        subst he0
        have hlast := h.last t e0 hin hlk
        obtain ⟨lg, hlg⟩ : ∃ lg, s.log = lg ++ [(t, e0)] := by
          have := List.getLast?_eq_some_iff.1 hlast
          exact this
        have hne : ∀ u e', (u, e') ∈ lg → u ≠ t := by
          rintro u e' hu rfl
          have := h.nodup
          rw [hlg, List.map_append, List.nodup_append] at this
          exact this.2.2 u (List.mem_map.2 ⟨(u, e'), hu, rfl⟩) u (by simp) rfl
        refine ⟨?_, h.nodup, ?_, ?_, ?_, ?_, ?_, h.last⟩
        · simp only [hlg, List.map_append, List.flatten_append, List.map_cons, List.map_nil, List.flatten_cons,
            List.flatten_nil, List.append_nil]
          rw [h.wire, hlg]
          simp only [List.map_append, List.flatten_append, List.map_cons, List.map_nil, List.flatten_cons,
            List.flatten_nil, List.append_nil]
          rw [List.append_assoc]
          congr 1
          · exact wire_congr fun u e' hu => (written_set_ne (hne u e' hu)).symm
          · simp only [written, ht, Wire.set, if_true]
            exact (List.take_add (i := k) (j := n + 1)).symm
        · intro u e' hu
          by_cases hut : u = t
          · subst hut
            rcases h.event u e' hu with ⟨m, h1⟩ | h1 | ⟨m, h1⟩ <;> simp [ht] at h1
            obtain ⟨rfl, -⟩ := h1
            exact Or.inl ⟨k + n + 1, by simp [Wire.set]⟩
          · simpa [Wire.set, hut] using h.event u e' hu
        · intro u hu
          by_cases hut : u = t
          · subst hut; exact ⟨e0, hin⟩
          · exact h.logged u (by simpa [Wire.set, hut] using hu)
        · intro u e' m hu
          by_cases hut : u = t
          · subst hut
            simp [Wire.set] at hu
            obtain ⟨rfl, rfl⟩ := hu
            exact hk
          · exact h.le u e' m (by simpa [Wire.set, hut] using hu)
        · intro u e' m hu
          by_cases hut : u = t
          · subst hut; simp [Wire.set] at hu
          · exact h.unlogged u e' m (by simpa [Wire.set, hut] using hu)
        · intro u
          by_cases hut : u = t
          · subst hut; simp [Wire.set, hlk]
          · simpa [Wire.set, hut] using h.holder u
      · cases hs
    · cases hs
  | flush t =>
    simp only [step] at hs
    split at hs
    · rename_i e k ht
      split at hs
      · rename_i hk
        injection hs with hs
        subst hs
        have hlk := (h.holder t).2 ⟨e, k, ht⟩
        obtain ⟨e0, hin⟩ := h.logged t (Or.inl ⟨e, k, ht⟩)
        have he0 : e0 = e := by
          rcases h.event t e0 hin with ⟨n, h1⟩ | h1 | ⟨n, h1⟩ <;> simp [ht] at h1
          exact h1.1.symm
        subst he0
        refine ⟨?_, h.nodup, ?_, ?_, ?_, ?_, ?_, by simp⟩
        · rw [h.wire]
          apply wire_congr
          intro u e' _
          by_cases hut : u = t
          · subst hut; simp [written, Wire.set, ht, hk]
          · exact (written_set_ne hut).symm
        · intro u e' hu
          by_cases hut : u = t
          · subst hut
            rcases h.event u e' hu with ⟨m, h1⟩ | h1 | ⟨m, h1⟩ <;> simp [ht] at h1
            obtain ⟨rfl, -⟩ := h1
            exact Or.inr (Or.inl (by simp [Wire.set]))
          · simpa [Wire.set, hut] using h.event u e' hu
        · intro u hu
          by_cases hut : u = t
          · subst hut; exact ⟨e0, hin⟩
          · exact h.logged u (by simpa [Wire.set, hut] using hu)
        · intro u e' m hu
          by_cases hut : u = t
          · subst hut; simp [Wire.set] at hu
          · exact h.le u e' m (by simpa [Wire.set, hut] using hu)
        · intro u e' m hu
          by_cases hut : u = t
          · subst hut; simp [Wire.set] at hu
          · exact h.unlogged u e' m (by simpa [Wire.set, hut] using hu)
        · intro u
          by_cases hut : u = t
          · subst hut; simp [Wire.set]
          · have := h.holder u
            rw [hlk] at this
            simp only [Wire.set, hut, if_false]
            rw [← this]
            simp [Ne.symm hut]
      · cases hs
    · cases hs
  | abort t =>
    simp only [step] at hs
    split at hs
    · rename_i e ht
      injection hs with hs
      subst hs
      have hnl : ∀ e', (t, e') ∉ s.log := by
        intro e' he'
        rcases h.event t e' he' with ⟨n, h1⟩ | h1 | ⟨n, h1⟩ <;> simp [ht] at h1
      have hne : ∀ u e', (u, e') ∈ s.log → u ≠ t := by
        rintro u e' hu rfl; exact hnl e' hu
      refine ⟨?_, h.nodup, ?_, ?_, ?_, ?_, ?_, h.last⟩
      · rw [h.wire]
        exact wire_congr fun u e' hu => (written_set_ne (hne u e' hu)).symm
      · intro u e' hu
        simpa [Wire.set, hne u e' hu] using h.event u e' hu
      · intro u hu
        by_cases hut : u = t
        · subst hut; simp [Wire.set] at hu
        · exact h.logged u (by simpa [Wire.set, hut] using hu)
      · intro u e' n hu
        by_cases hut : u = t
        · subst hut; simp [Wire.set] at hu; omega
        · exact h.le u e' n (by simpa [Wire.set, hut] using hu)
      · intro u e' n hu hn
        by_cases hut : u = t
        · subst hut; simp [Wire.set] at hu; omega
        · exact h.unlogged u e' n (by simpa [Wire.set, hut] using hu) hn
      · intro u
        by_cases hut : u = t
        · subst hut
          have := h.holder u
          simp only [ht] at this
          simpa [Wire.set] using this
        · simpa [Wire.set, hut] using h.holder u
    · rename_i e k ht
      injection hs with hs
      subst hs
      have hlk := (h.holder t).2 ⟨e, k, ht⟩
      obtain ⟨e0, hin⟩ := h.logged t (Or.inl ⟨e, k, ht⟩)
      have he0 : e0 = e := by
        rcases h.event t e0 hin with ⟨n, h1⟩ | h1 | ⟨n, h1⟩ <;> simp [ht] at h1
        exact h1.1.symm
      subst he0
      refine ⟨?_, h.nodup, ?_, ?_, ?_, ?_, ?_, by simp⟩
      · rw [h.wire]
        apply wire_congr
        intro u e' _
        by_cases hut : u = t
        · subst hut; simp [written, Wire.set, ht]
        · exact (written_set_ne hut).symm
      · intro u e' hu
        by_cases hut : u = t
        · subst hut
          rcases h.event u e' hu with ⟨m, h1⟩ | h1 | ⟨m, h1⟩ <;> simp [ht] at h1
          obtain ⟨rfl, -⟩ := h1
          exact Or.inr (Or.inr ⟨k, by simp [Wire.set]⟩)
        · simpa [Wire.set, hut] using h.event u e' hu
      · intro u hu
        by_cases hut : u = t
        · subst hut; exact ⟨e0, hin⟩
        · exact h.logged u (by simpa [Wire.set, hut] using hu)
      · intro u e' m hu
        by_cases hut : u = t
        · subst hut
          simp [Wire.set] at hu
          obtain ⟨rfl, rfl⟩ := hu
          exact h.le u e0 k (Or.inl ht)
        · exact h.le u e' m (by simpa [Wire.set, hut] using hu)
      · intro u e' m hu hn
        by_cases hut : u = t
        · subst hut
          simp [Wire.set] at hu
          obtain ⟨rfl, rfl⟩ := hu
          exact absurd hin hn
        · exact h.unlogged u e' m (by simpa [Wire.set, hut] using hu) hn
      · intro u
        by_cases hut : u = t
        · subst hut; simp [Wire.set]
        · have := h.holder u
          rw [hlk] at this
          simp only [Wire.set, hut, if_false]
          rw [← this]
          simp [Ne.symm hut]
    · cases hs

theorem inv_run {s s' : State} {ops : List Op} (h : WireInv s) (hr : run s ops = some s') : WireInv s' := by
  induction ops generalizing s with
  | nil => cases hr; exact h
  | cons op ops ih =>
    simp only [run, Option.bind_eq_some_iff] at hr
    obtain ⟨s1, h1, h2⟩ := hr
    exact ih (inv_step h h1) h2

/-! ### C18 -/

/-- The events whose whole frame is on the wire, in the order in which their emitters got the connection. -/
def completeEvents (s : State) : List Event :=
  (s.log.filter fun x => written s x.1 = (frame x.2).length).map Prod.snd

/-- No write was broken off in the middle of a frame (by an i/o error or by dropping the future). -/
def NoTornFrame (s : State) : Prop :=
  ∀ t e n, s.tasks t = some (.gone e n) → n = 0 ∨ n = (frame e).length

/-- What the wire looks like: complete frames, then at most a proper prefix of the frame that the holder of
the connection is writing. -/
def WireShape (s : State) : Prop :=
  ∃ p, s.wire = ((completeEvents s).map frame).flatten ++ p ∧
    (p = [] ∨ ∃ t e n, s.lock = some t ∧ s.tasks t = some (.writing e n) ∧ n < (frame e).length ∧
      p = (frame e).take n)

theorem flatten_shape (s : State) (lg : List (Nat × Event))
    (h : ∀ t e, (t, e) ∈ lg → written s t = 0 ∨ written s t = (frame e).length) :
    (lg.map fun x => (frame x.2).take (written s x.1)).flatten
      = (((lg.filter fun x => written s x.1 = (frame x.2).length).map Prod.snd).map frame).flatten := by
  induction lg with
  | nil => rfl
  | cons x lg ih =>
    obtain ⟨t, e⟩ := x
    have ih' := ih fun t e he => h t e (by simp [he])
    simp only [List.map_cons, List.flatten_cons, ih']
    by_cases hc : written s t = (frame e).length
    · rw [List.filter_cons_of_pos (by simpa using hc)]
      simp [hc]
    · rw [List.filter_cons_of_neg (by simpa using hc)]
      rcases h t e (by simp) with h0 | h0
      · simp [h0]
      · exact absurd h0 hc

/-- C18. However any number of tasks emit concurrently on one connection, as long as no write is broken off
in the middle, the bytes on the wire are complete frames, in the order in which the emitters got the
connection, followed by at most a part of the frame being written; every event whose emit has returned is
among the complete ones. -/
theorem C18_no_interleaving (ops : List Op) (s : State) (hr : run {} ops = some s) (hc : NoTornFrame s) :
    WireShape s ∧ ∀ t e, s.tasks t = some (.done e) → (t, e) ∈ s.log ∧ e ∈ completeEvents s := by
  have h := inv_run inv_init hr
  refine ⟨?_, ?_⟩
  · have hdone : ∀ t e, (t, e) ∈ s.log → s.lock ≠ some t → written s t = 0 ∨ written s t = (frame e).length := by
      intro t e hin hl
      rcases h.event t e hin with ⟨n, h1⟩ | h1 | ⟨n, h1⟩
      · exact absurd ((h.holder t).2 ⟨e, n, h1⟩) hl
      · right; simp [written, h1]
      · rcases hc t e n h1 with h2 | h2
        · left; simp [written, h1, h2]
        · right; simp [written, h1, h2]
    cases hl : s.lock with
    | none =>
      refine ⟨[], ?_, Or.inl rfl⟩
      rw [h.wire, List.append_nil]
      exact flatten_shape s s.log fun t e he => hdone t e he (by simp [hl])
    | some t =>
      obtain ⟨e, n, ht⟩ := (h.holder t).1 hl
      obtain ⟨e0, hin⟩ := h.logged t (Or.inl ⟨e, n, ht⟩)
      have he0 : e0 = e := by
        rcases h.event t e0 hin with ⟨n, h1⟩ | h1 | ⟨n, h1⟩ <;> simp [ht] at h1
        exact h1.1.symm
      subst he0
      obtain ⟨lg, hlg⟩ : ∃ lg, s.log = lg ++ [(t, e0)] :=
        List.getLast?_eq_some_iff.1 (h.last t e0 hin hl)
      have hne : ∀ u e', (u, e') ∈ lg → s.lock ≠ some u := by
        rintro u e' hu hlu
        rw [hl] at hlu
        obtain rfl := Option.some.inj hlu
        have := h.nodup
        rw [hlg, List.map_append, List.nodup_append] at this
        exact this.2.2 t (List.mem_map.2 ⟨(t, e'), hu, rfl⟩) t (by simp) rfl
      have hw : written s t = n := by simp [written, ht]
      have hle := h.le t e0 n (Or.inl ht)
      have hsh := flatten_shape s lg fun u e' hu => hdone u e' (by simp [hlg, hu]) (hne u e' hu)
      by_cases hfull : n = (frame e0).length
      · refine ⟨[], ?_, Or.inl rfl⟩
        rw [List.append_nil, h.wire]
        exact flatten_shape s s.log fun u e' hu => by
          by_cases hu' : s.lock = some u
          · rw [hl] at hu'
            obtain rfl := Option.some.inj hu'
            rcases h.event t e' hu with ⟨n, h1⟩ | h1 | ⟨n, h1⟩ <;> simp [ht] at h1
            right
            rw [hw, ← h1.1]
            exact hfull
          · exact hdone u e' hu hu'
      · refine ⟨(frame e0).take n, ?_, Or.inr ⟨t, e0, n, hl, ht, by omega, rfl⟩⟩
        rw [h.wire, completeEvents, hlg]
        simp only [List.map_append, List.flatten_append, List.filter_append, hsh]
        rw [List.filter_cons_of_neg (by simpa [hw] using hfull)]
        simp [hw]
  · intro t e ht
    obtain ⟨e0, hin⟩ := h.logged t (Or.inr ⟨e, ht⟩)
    have he0 : e0 = e := by
      rcases h.event t e0 hin with ⟨n, h1⟩ | h1 | ⟨n, h1⟩ <;> simp [ht] at h1
      exact h1.symm
    subst he0
    refine ⟨hin, ?_⟩
    simp only [completeEvents, List.mem_map, List.mem_filter]
    exact ⟨(t, e0), ⟨hin, by simp [written, ht]⟩, rfl⟩

theorem frame_ok (e : Event) : e.intoBytes = .ok (frame e) := by
  simp [frame, Event.intoBytes]

/-- C18, as seen by the peer: it reads exactly the completely written events, in this order, however the
transport cuts the bytes. -/
theorem C18_peer_reads (ops : List Op) (s : State) (hr : run {} ops = some s) (hc : NoTornFrame s)
    (hf : ∀ t e, (t, e) ∈ s.log → Fits e ∧ Allocatable e) (checks : Bool)
    (sc : Script) (hs : sc.bytes = s.wire) (fuel : Nat) (hfuel : (completeEvents s).length < fuel) :
    readLoop scriptSource checks fuel sc
      = (completeEvents s, if sc.closed then .err (.io .unexpectedEof) else .hang) := by
  obtain ⟨⟨p, hw, hp⟩, _⟩ := C18_no_interleaving ops s hr hc
  have h := inv_run inv_init hr
  have hall : ∀ e ∈ completeEvents s, Fits e ∧ Allocatable e := by
    intro e he
    simp only [completeEvents, List.mem_map, List.mem_filter] at he
    obtain ⟨⟨t, e'⟩, ⟨h1, _⟩, rfl⟩ := he
    exact hf t e' h1
  have hframes : (completeEvents s).map Event.intoBytes = ((completeEvents s).map frame).map Outcome.ok := by
    rw [List.map_map]
    exact List.map_congr_left fun e _ => frame_ok e
  rcases hp with rfl | ⟨t, e, n, hl, ht, hn, rfl⟩
  · exact C02_back_to_back checks _ _ hall hframes emptyEvent ⟨empty_fits, empty_alloc⟩ [] (frame emptyEvent)
      (by simpa using frame_ok emptyEvent) (by decide +kernel) sc (by rw [hs, hw]) fuel hfuel
  · obtain ⟨e0, hin⟩ := h.logged t (Or.inl ⟨e, n, ht⟩)
    have he0 : e0 = e := by
      rcases h.event t e0 hin with ⟨n, h1⟩ | h1 | ⟨n, h1⟩ <;> simp [ht] at h1
      exact h1.1.symm
    subst he0
    exact C02_back_to_back checks _ _ hall hframes e0 (hf t e0 hin) ((frame e0).take n) ((frame e0).drop n)
      (by rw [List.take_append_drop]; exact frame_ok e0) (by simp; omega) sc (by rw [hs, hw]) fuel hfuel

theorem step_mono {s s' : State} {op : Op} (hs : step s op = some s') :
    (∃ w, s'.wire = s.wire ++ w) ∧ (∃ l, s'.log = s.log ++ l ∧ ∀ t e, (t, e) ∈ l → s.tasks t = some (.waiting e)) := by
  have triv : ∀ s1 : State, some s1 = some s' → s1.wire = s.wire → s1.log = s.log →
      (∃ w, s'.wire = s.wire ++ w) ∧
      (∃ l, s'.log = s.log ++ l ∧ ∀ t e, (t, e) ∈ l → s.tasks t = some (.waiting e)) := by
    intro s1 h1 h2 h3
    obtain rfl := Option.some.inj h1
    exact ⟨⟨[], by simp [h2]⟩, ⟨[], by simp [h3], by simp⟩⟩
  cases op with
  | start t e =>
    simp only [step] at hs
    split at hs
    · exact triv _ hs rfl rfl
    · cases hs
  | lock t =>
    simp only [step] at hs
    split at hs
    · rename_i e ht _
      obtain rfl := Option.some.inj hs
      refine ⟨⟨[], by simp⟩, ⟨[(t, e)], rfl, ?_⟩⟩
      intro u e' hu
      simp only [List.mem_singleton, Prod.mk.injEq] at hu
      obtain ⟨rfl, rfl⟩ := hu
      exact ht
    · cases hs
  | write t n =>
    simp only [step] at hs
    split at hs
    · split at hs
      · obtain rfl := Option.some.inj hs
        exact ⟨⟨_, rfl⟩, ⟨[], by simp, by simp⟩⟩
      · cases hs
    · cases hs
  | flush t =>
    simp only [step] at hs
    split at hs
    · split at hs
      · exact triv _ hs rfl rfl
      · cases hs
    · cases hs
  | abort t =>
    simp only [step] at hs
    split at hs
    · exact triv _ hs rfl rfl
    · exact triv _ hs rfl rfl
    · cases hs

theorem run_mono {s s' : State} {ops : List Op} (hr : run s ops = some s') :
    (∃ w, s'.wire = s.wire ++ w) ∧ (∃ l, s'.log = s.log ++ l) := by
  induction ops generalizing s with
  | nil => cases hr; exact ⟨⟨[], by simp⟩, ⟨[], by simp⟩⟩
  | cons op ops ih =>
    simp only [run, Option.bind_eq_some_iff] at hr
    obtain ⟨s1, h1, h2⟩ := hr
    obtain ⟨⟨w, hw⟩, ⟨l, hl, _⟩⟩ := step_mono h1
    obtain ⟨⟨w', hw'⟩, ⟨l', hl'⟩⟩ := ih h2
    exact ⟨⟨w ++ w', by rw [hw', hw, List.append_assoc]⟩, ⟨l ++ l', by rw [hl', hl, List.append_assoc]⟩⟩

/-- C18, order. Bytes on the wire are never changed. An emit that has returned got the connection before
any emit that was started later, so its frame precedes the other one's. -/
theorem C18_order (ops ops' : List Op) (s s' : State) (hr : run {} ops = some s) (hr' : run s ops' = some s') :
    (∃ w, s'.wire = s.wire ++ w) ∧
    ∀ t e u e', s.tasks t = some (.done e) → s.tasks u = none → (u, e') ∈ s'.log →
      ∃ l1 l2 l3, s'.log = l1 ++ (t, e) :: l2 ++ (u, e') :: l3 := by
  have h := inv_run inv_init hr
  obtain ⟨hw, ⟨l, hl⟩⟩ := run_mono hr'
  refine ⟨hw, ?_⟩
  intro t e u e' ht hu hin
  obtain ⟨e0, hin0⟩ := h.logged t (Or.inr ⟨e, ht⟩)
  have he0 : e0 = e := by
    rcases h.event t e0 hin0 with ⟨n, h1⟩ | h1 | ⟨n, h1⟩ <;> simp [ht] at h1
    exact h1.symm
  subst he0
  rw [hl] at hin
  rcases List.mem_append.1 hin with hin | hin
  · rcases h.event u e' hin with ⟨n, h1⟩ | h1 | ⟨n, h1⟩ <;> simp [hu] at h1
  · obtain ⟨a, b, hab⟩ := List.append_of_mem hin0
    obtain ⟨c, d, hcd⟩ := List.append_of_mem hin
    exact ⟨a, b ++ c, d, by rw [hl, hab, hcd]; simp⟩

/-- The connection is never blocked by a finished or dropped emit: whoever holds it is still writing, and if
nobody holds it any waiting emit can get it. -/
theorem C18_lock_released (ops : List Op) (s : State) (hr : run {} ops = some s) :
    (∀ t, s.lock = some t → ∃ e n, s.tasks t = some (.writing e n)) ∧
    (s.lock = none → ∀ t e, s.tasks t = some (.waiting e) → (step s (.lock t)).isSome) := by
  have h := inv_run inv_init hr
  refine ⟨fun t => (h.holder t).1, ?_⟩
  intro hl t e ht
  simp [step, ht, hl]

/-- A run with two concurrent emitters and partial writes; the second one is still writing. -/
def exampleOps : List Op :=
  [.start 0 sampleEvent, .start 1 emptyEvent, .start 2 sampleEvent, .lock 1, .write 1 4, .abort 2,
   .write 1 ((frame emptyEvent).length - 6), .flush 1, .lock 0, .write 0 6]

example : ((run {} exampleOps).map fun s => (s.lock, s.log.map Prod.fst, s.tasks 2)) =
    some (some 0, [1, 0], some (.gone sampleEvent 0)) := by decide +kernel

example : ∃ s, run {} exampleOps = some s ∧ NoTornFrame s := by
  refine ⟨_, rfl, ?_⟩
  intro t e n h
  by_cases h0 : t = 0
  · subst h0; exact absurd h (by simp [Wire.set])
  · by_cases h1 : t = 1
    · subst h1; exact absurd h (by simp [Wire.set])
    · by_cases h2 : t = 2
      · subst h2; left; simp [Wire.set] at h; exact h.2.symm
      · exact absurd h (by simp [Wire.set, h0, h1, h2])

/-! ### C19 -/

/-- C19. Dropping an emit future (or its failing) before it holds the connection, before it has written
anything, or after its whole frame is written, changes nothing on the wire, frees the connection and leaves
the other emits alone; by `C18_peer_reads` the peer is not disturbed. For a drop in the middle of a
frame see `C19_wire_exact`, `C19_read_before_torn` and `C19_violated`. -/
theorem C19_drop_harmless (ops : List Op) (s s' : State) (t : Nat) (hr : run {} ops = some s)
    (hs : step s (.abort t) = some s') (hc : NoTornFrame s)
    (hh : written s t = 0 ∨ ∃ e, s.tasks t = some (.writing e (frame e).length)) :
    s'.wire = s.wire ∧ NoTornFrame s' ∧ s'.lock ≠ some t ∧ (∀ u, u ≠ t → s'.tasks u = s.tasks u) ∧
    (∀ u, u ≠ t → (s.lock = some u ↔ s'.lock = some u)) := by
  have h := inv_run inv_init hr
  simp only [step] at hs
  split at hs
  · rename_i e ht
    injection hs with hs
    subst hs
    refine ⟨rfl, ?_, ?_, ?_, by simp⟩
    · intro u e' n hu
      by_cases hut : u = t
      · subst hut; simp [Wire.set] at hu; exact Or.inl hu.2.symm
      · exact hc u e' n (by simpa [Wire.set, hut] using hu)
    · intro hl
      obtain ⟨e', n, h1⟩ := (h.holder t).1 hl
      simp [ht] at h1
    · intro u hu; simp [Wire.set, hu]
  · rename_i e k ht
    injection hs with hs
    subst hs
    have hlk := (h.holder t).2 ⟨e, k, ht⟩
    refine ⟨rfl, ?_, by simp, ?_, ?_⟩
    · intro u e' n hu
      by_cases hut : u = t
      · subst hut
        simp [Wire.set] at hu
        obtain ⟨rfl, rfl⟩ := hu
        rcases hh with hh | ⟨e'', hh⟩
        · left; simpa [written, ht] using hh
        · right
          rw [ht] at hh
          simp at hh
          obtain ⟨rfl, hh⟩ := hh
          exact hh
      · exact hc u e' n (by simpa [Wire.set, hut] using hu)
    · intro u hu; simp [Wire.set, hu]
    · intro u hu; simp [hlk, Ne.symm hu]
  · cases hs

/-- C19, exactly what is on the wire, whatever is dropped or fails at whatever point: in the order in which the emitters got the connection, the part of its frame that
each of them has written; an emit that has returned has written its whole frame; no emitter that got the connection appears twice. -/
theorem C19_wire_exact (ops : List Op) (s : State) (hr : run {} ops = some s) :
    ∃ parts : List (Nat × Event × Nat), s.log = parts.map (fun p => (p.1, p.2.1)) ∧ (parts.map (·.1)).Nodup ∧
      s.wire = (parts.map fun p => (frame p.2.1).take p.2.2).flatten ∧
      ∀ t e n, (t, e, n) ∈ parts → n ≤ (frame e).length ∧
        (s.tasks t = some (.writing e n) ∨ s.tasks t = some (.gone e n) ∨ (s.tasks t = some (.done e) ∧ n = (frame e).length)) := by
  have h := inv_run inv_init hr
  refine ⟨s.log.map fun x => (x.1, x.2, written s x.1), by simp [Function.comp_def], by simpa [Function.comp_def] using h.nodup, ?_, ?_⟩
  · rw [h.wire]; simp [Function.comp_def]
  · intro t e n hm
    simp only [List.mem_map, Prod.mk.injEq] at hm
    obtain ⟨⟨t', e'⟩, hin, rfl, rfl, rfl⟩ := hm
    rcases h.event t' e' hin with ⟨n, h1⟩ | h1 | ⟨n, h1⟩
    · simp only [written, h1]; exact ⟨h.le t' e' n (Or.inl h1), Or.inl trivial⟩
    · simp [written, h1]
    · simp only [written, h1]; exact ⟨h.le t' e' n (Or.inr h1), Or.inr (Or.inl trivial)⟩

/-- C19, dropping an emit future (or its failing) at any point puts nothing on the wire, leaves the others alone and frees the connection. -/
theorem C19_drop_releases (ops : List Op) (s s' : State) (t : Nat) (hr : run {} ops = some s) (hs : step s (.abort t) = some s') :
    s'.wire = s.wire ∧ s'.log = s.log ∧ s'.lock ≠ some t ∧ (∀ u, u ≠ t → s'.tasks u = s.tasks u) ∧
    (∀ u, u ≠ t → (s.lock = some u ↔ s'.lock = some u)) := by
  have h := inv_run inv_init hr
  simp only [step] at hs
  split at hs
  · rename_i e ht
    cases hs
    refine ⟨rfl, rfl, ?_, fun u hu => by simp [Wire.set, hu], by simp⟩
    intro hl
    obtain ⟨e', n, h1⟩ := (h.holder t).1 hl
    simp [ht] at h1
  · rename_i e k ht
    cases hs
    have hlk := (h.holder t).2 ⟨e, k, ht⟩
    exact ⟨rfl, rfl, by simp, fun u hu => by simp [Wire.set, hu], fun u hu => by simp [hlk, Ne.symm hu]⟩
  · cases hs

/-- C19, what a broken off emit cannot harm: the events that were completely written before the first emit that was broken off in the middle of its frame (or
is still writing) are the first that the peer reads, in order, whatever comes after them. -/
theorem C19_read_before_torn (ops : List Op) (s : State) (hr : run {} ops = some s) (pre post : List (Nat × Event)) (hlog : s.log = pre ++ post)
    (hw : ∀ t e, (t, e) ∈ pre → Fits e ∧ Allocatable e ∧ (s.tasks t = some (.done e) ∨ s.tasks t = some (.gone e (frame e).length)))
    (checks : Bool) (sc : Script) (hs : sc.bytes = s.wire) (fuel : Nat) (hfuel : pre.length < fuel) :
    ∃ more, (readLoop scriptSource checks fuel sc).1 = pre.map Prod.snd ++ more := by
  have h := inv_run inv_init hr
  rw [readLoop_script, hs, h.wire, hlog, List.map_append, List.flatten_append]
  generalize (post.map fun x => (frame x.2).take (written s x.1)).flatten = rest
  generalize sc.closed = closed
  clear hs hlog
  induction pre generalizing fuel with
  | nil => exact ⟨_, rfl⟩
  | cons x pre ih =>
    obtain ⟨t, e⟩ := x
    obtain ⟨n, rfl⟩ := Nat.exists_eq_succ_of_ne_zero (by omega : fuel ≠ 0)
    obtain ⟨h1, h2, h3⟩ := hw t e (by simp)
    have hwr : written s t = (frame e).length := by rcases h3 with h3 | h3 <;> simp [written, h3]
    obtain ⟨more, hm⟩ := ih (fun t e hin => hw t e (by simp [hin])) n (by simp at hfuel; omega)
    obtain ⟨bs, e1, e2⟩ := C01_roundtrip e h1 h2
    rw [frame_ok] at e1
    cases e1
    refine ⟨more, ?_⟩
    simp only [List.map_cons, List.flatten_cons, hwr, List.take_length, List.append_assoc]
    rw [readLoop_step n (openRead_of_ok (closed := closed) (e2 checks _)), hm]
    rfl

/-- `C19_read_before_torn` applies: task 0 has returned, task 1 is dropped after one byte, task 2 emits after that. -/
example : ∃ s, run {} [.start 0 emptyEvent, .lock 0, .write 0 ((frame emptyEvent).length - 1), .flush 0, .start 1 sampleEvent, .lock 1, .write 1 0, .abort 1,
    .start 2 emptyEvent, .lock 2, .write 2 3] = some s ∧ s.log = [(0, emptyEvent)] ++ [(1, sampleEvent), (2, emptyEvent)] ∧
    s.tasks 0 = some (.done emptyEvent) ∧ s.tasks 1 = some (.gone sampleEvent 1) := ⟨_, rfl, rfl, rfl, rfl⟩

theorem read_frames (checks closed : Bool) (rest : Bytes) : ∀ (es : List Event) (fuel : Nat), (∀ e ∈ es, Fits e ∧ Allocatable e) →
    (readLoop (openSource closed) checks (es.length + fuel) ((es.map frame).flatten ++ rest)).1 = es ++ (readLoop (openSource closed) checks fuel rest).1 := by
  intro es
  induction es with
  | nil => intro fuel _; simp
  | cons e es ih =>
    intro fuel h
    obtain ⟨h1, h2⟩ := h e (by simp)
    obtain ⟨bs, e1, e2⟩ := C01_roundtrip e h1 h2
    rw [frame_ok] at e1
    cases e1
    have hm := ih fuel fun e he => h e (by simp [he])
    simp only [List.map_cons, List.flatten_cons, List.append_assoc, List.cons_append, List.length_cons]
    rw [show es.length + 1 + fuel = (es.length + fuel) + 1 by omega, readLoop_step _ (openRead_of_ok (closed := closed) (e2 checks _)), hm]

theorem frame_eq (e : Event) : frame e = (putU64 (UInt64.ofNat (UInt16.ofNat e.header.intoBytes.length).toNat + UInt64.ofNat e.data.length) ++
    putU16 (UInt16.ofNat e.header.intoBytes.length) ++ e.header.intoBytes) ++ e.data := by
  simp [frame, Event.intoBytes]

/-- A frame of which the last `k` bytes are missing, all of them data, followed by other bytes is the frame of an event with other data. -/
theorem torn_frame (e : Event) (k : Nat) (b : Bytes) (h1 : k ≤ e.data.length) (h2 : k ≤ b.length) :
    (frame e).take ((frame e).length - k) ++ b = frame { e with data := e.data.take (e.data.length - k) ++ b.take k } ++ b.drop k := by
  have hl : (e.data.take (e.data.length - k) ++ b.take k).length = e.data.length := by simp; omega
  rw [frame_eq e, frame_eq { e with data := e.data.take (e.data.length - k) ++ b.take k }]
  simp only [hl]
  generalize putU64 (UInt64.ofNat (UInt16.ofNat e.header.intoBytes.length).toNat + UInt64.ofNat e.data.length) ++ putU16 (UInt16.ofNat e.header.intoBytes.length) ++ e.header.intoBytes = hd
  rw [show (hd ++ e.data).length - k = hd.length + (e.data.length - k) by rw [List.length_append]; omega, List.take_length_add_append]
  simp only [List.append_assoc, List.take_append_drop]

/-- C19, violated: an emit that is broken off makes the peer receive an event that nobody has emitted. If all but the last `k` bytes of a frame have been written when its emit is dropped, these being part of the event's
data, and the next emit is completed, then the peer, after the events before, gets the dropped event with the beginning of the next frame in place of the last `k` bytes of its data, as a good event. -/
theorem C19_violated_altered (ops : List Op) (s : State) (hr : run {} ops = some s) (pre post : List (Nat × Event)) (t t' : Nat) (e e' : Event) (k : Nat)
    (hlog : s.log = pre ++ (t, e) :: (t', e') :: post)
    (hw : ∀ t e, (t, e) ∈ pre → Fits e ∧ Allocatable e ∧ s.tasks t = some (.done e))
    (hfit : Fits e ∧ Allocatable e) (hgone : s.tasks t = some (.gone e ((frame e).length - k))) (hk : k ≤ e.data.length) (hdone : s.tasks t' = some (.done e')) (hk' : k ≤ (frame e').length)
    (checks : Bool) (sc : Script) (hs : sc.bytes = s.wire) (fuel : Nat) :
    ∃ more, (readLoop scriptSource checks (pre.length + 1 + fuel) sc).1 =
      pre.map Prod.snd ++ { e with data := e.data.take (e.data.length - k) ++ (frame e').take k } :: more := by
  have h := inv_run inv_init hr
  rw [readLoop_script, hs, h.wire, hlog]
  have hpre : (pre.map fun x => (frame x.2).take (written s x.1)) = (pre.map Prod.snd).map frame := by
    rw [List.map_map]
    apply List.map_congr_left
    intro x hx
    obtain ⟨-, -, h3⟩ := hw x.1 x.2 hx
    simp [written, h3]
  have hpf : ∀ x ∈ pre.map Prod.snd, Fits x ∧ Allocatable x := by
    intro x hx
    obtain ⟨y, hy, rfl⟩ := List.mem_map.1 hx
    obtain ⟨h1, h2, -⟩ := hw y.1 y.2 hy
    exact ⟨h1, h2⟩
  have h1 : written s t = (frame e).length - k := by simp [written, hgone]
  have h2 : written s t' = (frame e').length := by simp [written, hdone]
  simp only [List.map_append, List.map_cons, List.flatten_append, List.flatten_cons, hpre, h1, h2, List.take_length]
  generalize (post.map fun x => (frame x.2).take (written s x.1)).flatten = rest
  have hmf : Fits { e with data := e.data.take (e.data.length - k) ++ (frame e').take k } ∧ Allocatable { e with data := e.data.take (e.data.length - k) ++ (frame e').take k } := by
    refine ⟨hfit.1, ?_⟩
    have : (e.data.take (e.data.length - k) ++ (frame e').take k).length = e.data.length := by simp; omega
    show (e.data.take (e.data.length - k) ++ (frame e').take k).length ≤ _
    rw [this]; exact hfit.2
  rw [show pre.length + 1 + fuel = (pre.map Prod.snd).length + (1 + fuel) by simp; omega, read_frames checks sc.closed _ _ _ hpf, ← List.append_assoc ((frame e).take _), torn_frame e k (frame e') hk hk']
  have := read_frames checks sc.closed ((frame e').drop k ++ rest) [{ e with data := e.data.take (e.data.length - k) ++ (frame e').take k }] fuel (by
    intro x hx; cases List.mem_singleton.1 hx; exact hmf)
  simp only [List.length_singleton, List.map_cons, List.map_nil, List.flatten_cons, List.flatten_nil, List.append_nil] at this
  exact ⟨_, by rw [List.append_assoc (frame _), this]; rfl⟩

/-- `C19_violated_altered` applies: task 0 is dropped with three of its four bytes of data missing; the peer gets an event with the data 1, 0, 0, 0, which nobody has emitted. -/
example : ∃ s, run {} [.start 0 sampleEvent, .start 1 emptyEvent, .lock 0, .write 0 ((frame sampleEvent).length - 4), .abort 0, .lock 1, .write 1 ((frame emptyEvent).length - 1), .flush 1] = some s ∧
    s.log = [] ++ (0, sampleEvent) :: (1, emptyEvent) :: [] ∧ s.tasks 0 = some (.gone sampleEvent ((frame sampleEvent).length - 3)) ∧ s.tasks 1 = some (.done emptyEvent) ∧
    sampleEvent.data.take (sampleEvent.data.length - 3) ++ (frame emptyEvent).take 3 = [1, 0, 0, 0] := ⟨_, rfl, rfl, rfl, rfl, by decide +kernel⟩

/-- Task 0 is dropped after one byte of its frame, then task 1 emits and returns `Ok`. -/
def tornOps : List Op :=
  [.start 0 sampleEvent, .lock 0, .write 0 0, .abort 0,
   .start 1 emptyEvent, .lock 1, .write 1 ((frame emptyEvent).length - 1), .flush 1]

/-- C19, violated. Dropping an emit in the middle of its frame corrupts the connection: the next emit
returns `Ok`, but the peer, having received all the bytes, does not get its event, in no build profile, and
whether or not the connection is closed then. -/
theorem C19_violated :
    ∃ s, run {} tornOps = some s ∧ s.tasks 1 = some (.done emptyEvent) ∧
      ∀ closed checks fuel, (readLoop (openSource closed) checks fuel s.wire).1 = [] := by
  refine ⟨_, rfl, by simp [Wire.set], ?_⟩
  intro closed checks fuel
  have hw : ([] ++ ((frame sampleEvent).drop 0).take (0 + 1)) ++
      ((frame emptyEvent).drop 0).take ((frame emptyEvent).length - 1 + 1)
      = (frame sampleEvent |>.take 1 |>.append (frame emptyEvent)) := by decide +kernel
  have : ∀ closed checks, (match Event.fromAsyncRead (openSource closed) checks
      (frame sampleEvent |>.take 1 |>.append (frame emptyEvent)) with | .ok _ => false | _ => true) = true := by
    decide +kernel
  have := this closed checks
  cases fuel with
  | zero => rfl
  | succ fuel =>
    unfold readLoop
    simp only [hw]
    split <;> first | rfl | (rename_i h; rw [h] at this; cases this)

end Bromine.Props
