import Verif.Spec.Ids
import Verif.Props.EventId
import Verif.Props.System
/-
C73: event ids of two processes.
-/
namespace Bromine.Props
open Bromine Bromine.Spec

/-- An id as a number. -/
theorem eventId_toNat (now : Now) (c : UInt64) (hm : now.millis < 1000) (hc : c.toNat < 2 ^ 32) :
    (eventId now c).toNat = (now.secs % 65535).toNat * 2 ^ 48 + now.millis.toNat * 2 ^ 32 + c.toNat := by
  have hm' : now.millis.toNat < 1000 := by simpa [UInt64.lt_iff_toNat_lt] using hm
  have hs : (now.secs % 65535).toNat < 65535 := by
    rw [UInt64.toNat_mod]
    exact Nat.mod_lt _ (by decide)
  generalize hS : (now.secs % 65535).toNat = S at hs
  generalize hM : now.millis.toNat = M at hm'
  generalize hC : c.toNat = C at hc
  have h1 : ((now.secs % 65535) <<< (48 : UInt64)).toNat = S <<< 48 := by
    rw [UInt64.toNat_shiftLeft, hS]
    simp only [UInt64.reduceToNat, Nat.reduceMod, Nat.shiftLeft_eq]
    omega
  have h2 : (now.millis <<< (32 : UInt64)).toNat = M <<< 32 := by
    rw [UInt64.toNat_shiftLeft, hM]
    simp only [UInt64.reduceToNat, Nat.reduceMod, Nat.shiftLeft_eq]
    omega
  unfold eventId
  rw [UInt64.toNat_or, UInt64.toNat_or, h1, h2, hC, Nat.or_assoc, ← Nat.shiftLeft_add_eq_or_of_lt hc, ← Nat.shiftLeft_add_eq_or_of_lt]
  · simp only [Nat.shiftLeft_eq]; omega
  · simp only [Nat.shiftLeft_eq]; omega

/-- Two ids are equal iff counter and moment are. -/
theorem eventId_eq_iff (n n' : Now) (c c' : UInt64) (hm : n.millis < 1000) (hm' : n'.millis < 1000) (hc : c.toNat < 2 ^ 32) (hc' : c'.toNat < 2 ^ 32) :
    eventId n c = eventId n' c' ↔ c = c' ∧ SameMoment n n' := by
  have h1 : n.millis.toNat < 1000 := by simpa [UInt64.lt_iff_toNat_lt] using hm
  have h2 : n'.millis.toNat < 1000 := by simpa [UInt64.lt_iff_toNat_lt] using hm'
  rw [← UInt64.toNat_inj, eventId_toNat n c hm hc, eventId_toNat n' c' hm' hc', ← UInt64.toNat_inj (a := c), SameMoment,
    ← UInt64.toNat_inj (a := n.millis), ← UInt64.toNat_inj (a := n.secs % 65535)]
  omega

/-- The `i`-th id is made from the `i`-th clock reading used and `i`. -/
theorem idgen_used (ops : List IdGen.Op) (hr : RealClock ops) :
    (IdGen.run {} ops).used.length = (IdGen.run {} ops).out.length ∧
    ∀ i t x, (IdGen.run {} ops).out[i]? = some (t, x) →
      ∃ now, (IdGen.run {} ops).used[i]? = some now ∧ now.millis < 1000 ∧ x = eventId now (UInt64.ofNat i) := by
  let P : IdGen.State → Prop := fun s => s.counter = UInt64.ofNat s.out.length ∧ s.used.length = s.out.length ∧ (∀ t now, s.pending t = some now → now.millis < 1000) ∧
      ∀ i t x, s.out[i]? = some (t, x) → ∃ now, s.used[i]? = some now ∧ now.millis < 1000 ∧ x = eventId now (UInt64.ofNat i)
  suffices h : ∀ s, P s → P (IdGen.run s ops) by
    obtain ⟨-, h2, -, h4⟩ := h {} ⟨rfl, rfl, by simp, by simp⟩
    exact ⟨h2, h4⟩
  induction ops with
  | nil => exact fun s h => h
  | cons op ops ih =>
    intro s hs
    refine ih (fun t now hm => hr t now (List.mem_cons_of_mem _ hm)) _ ?_
    obtain ⟨h1, h2, h3, h4⟩ := hs
    cases op with
    | clock t now =>
      cases now with
      | none => exact ⟨h1, h2, h3, h4⟩
      | some now =>
        refine ⟨h1, h2, fun u n hu => ?_, h4⟩
        simp only [IdGen.step] at hu
        split at hu
        · cases hu; exact hr t now (by simp)
        · exact h3 u n hu
    | fetch t =>
      unfold IdGen.step
      cases hp : s.pending t with
      | none => simpa [P, hp] using ⟨h1, h2, h3, h4⟩
      | some now =>
        simp only [P, hp]
        refine ⟨?_, by simp [h2], fun u n hu => ?_, fun i u x hi => ?_⟩
        · rw [h1]
          apply UInt64.toNat_inj.mp
          rw [UInt64.toNat_add]
          simp
        · split at hu
          · cases hu
          · exact h3 u n hu
        · by_cases hlt : i < s.out.length
          · rw [List.getElem?_append_left hlt] at hi
            obtain ⟨now', g1, g2, g3⟩ := h4 i u x hi
            exact ⟨now', by rw [List.getElem?_append_left (by omega)]; exact g1, g2, g3⟩
          · rw [List.getElem?_append_right (by omega)] at hi
            have hi0 : i = s.out.length := by
              by_cases h0 : i - s.out.length = 0
              · omega
              · obtain ⟨k, hk⟩ := Nat.exists_eq_succ_of_ne_zero h0
                rw [hk] at hi; simp at hi
            subst hi0
            simp only [Nat.sub_self, List.getElem?_cons_zero, Option.some.injEq, Prod.mk.injEq] at hi
            refine ⟨now, by rw [List.getElem?_append_right (by omega)]; simp [h2], h3 t now hp, ?_⟩
            rw [← hi.2, h1]

/-- C14, C73: each id is made with a clock reading of its own call: the readings in the ids of a thread are, in order, some of the readings that this thread has taken, each used once. -/
theorem C14_own_reading (ops : List IdGen.Op) (t : Nat) : (readingsUsed t (IdGen.run {} ops)).Sublist (readings t ops) := by
  suffices h : ∀ (pre : List IdGen.Op) (s : IdGen.State), s.used.length = s.out.length → (readingsUsed t s ++ (s.pending t).toList).Sublist (readings t pre) →
      (readingsUsed t (IdGen.run s ops) ++ ((IdGen.run s ops).pending t).toList).Sublist (readings t (pre ++ ops)) from
    (List.sublist_append_left _ _).trans (h [] {} rfl (by simp [readingsUsed, readings]))
  induction ops with
  | nil => intro pre s hl hs; simpa [IdGen.run] using hs
  | cons op ops ih =>
    intro pre s hl hs
    have key : (IdGen.step s op).used.length = (IdGen.step s op).out.length ∧
        (readingsUsed t (IdGen.step s op) ++ ((IdGen.step s op).pending t).toList).Sublist (readings t (pre ++ [op])) := by
      have hr : readings t (pre ++ [op]) = readings t pre ++ readings t [op] := by simp [readings]
      rw [hr]
      rcases op with ⟨u, _ | now⟩ | u
      · exact ⟨hl, hs.trans (List.sublist_append_left _ _)⟩
      · refine ⟨hl, ?_⟩
        by_cases hu : t = u
        · subst hu
          have : readings t [.clock t (some now)] = [now] := by simp [readings]
          rw [this]
          simp only [IdGen.step, if_true, Option.toList]
          exact ((List.sublist_append_left _ _).trans hs).append (List.Sublist.refl _)
        · have : readings t [.clock u (some now)] = [] := by simp [readings, Ne.symm hu]
          rw [this, List.append_nil]
          simp only [IdGen.step, if_neg hu]
          exact hs
      · have : readings t [.fetch u] = [] := by simp [readings]
        rw [this, List.append_nil]
        simp only [IdGen.step]
        cases hp : s.pending u with
        | none => exact ⟨hl, hs⟩
        | some now =>
          refine ⟨by simp [hl], ?_⟩
          simp only [readingsUsed]
          rw [List.zip_append hl.symm, List.filter_append, List.map_append]
          by_cases hu : t = u
          · subst hu
            rw [hp] at hs
            simp only [if_true, Option.toList_none, List.append_nil]
            simpa [readingsUsed] using hs
          · simp only [if_neg hu]
            simpa [Ne.symm hu, readingsUsed] using hs
    have := ih (pre ++ [op]) _ key.1 key.2
    simpa [IdGen.run] using this

/-- Two threads, each with its own readings. -/
example : let ops : List IdGen.Op := [.clock 0 (some ⟨5, 1⟩), .clock 1 (some ⟨6, 2⟩), .fetch 1, .clock 0 none, .fetch 0, .fetch 0, .clock 1 (some ⟨7, 3⟩), .fetch 1]
    readingsUsed 0 (IdGen.run {} ops) = [⟨5, 1⟩] ∧ readingsUsed 1 (IdGen.run {} ops) = [⟨6, 2⟩, ⟨7, 3⟩] := by decide +kernel

/-! ### C73 -/

/-- C73, exactly when ids of two processes collide: among the first 2^32 events of each, the `i`-th of the one and the `j`-th of the other have the same id iff they have the same
number and were created at the same moment (in the sense of `SameMoment`). -/
theorem C73_collide_iff (ops ops' : List IdGen.Op) (hr : RealClock ops) (hr' : RealClock ops') (i j t u : Nat) (x y : UInt64)
    (hx : (IdGen.run {} ops).out[i]? = some (t, x)) (hy : (IdGen.run {} ops').out[j]? = some (u, y)) (hi : i < 2 ^ 32) (hj : j < 2 ^ 32) :
    x = y ↔ i = j ∧ ∃ n n', (IdGen.run {} ops).used[i]? = some n ∧ (IdGen.run {} ops').used[i]? = some n' ∧ SameMoment n n' := by
  obtain ⟨n, h1, h2, h3⟩ := (idgen_used ops hr).2 i t x hx
  obtain ⟨n', g1, g2, g3⟩ := (idgen_used ops' hr').2 j u y hy
  have hi' : (UInt64.ofNat i).toNat = i := by rw [UInt64.toNat_ofNat']; omega
  have hj' : (UInt64.ofNat j).toNat = j := by rw [UInt64.toNat_ofNat']; omega
  rw [h3, g3, eventId_eq_iff n n' _ _ h2 g2 (by omega) (by omega), ← UInt64.toNat_inj, hi', hj']
  constructor
  · rintro ⟨rfl, h⟩
    exact ⟨rfl, n, n', h1, g1, h⟩
  · rintro ⟨rfl, m, m', k1, k2, h⟩
    rw [h1] at k1
    rw [g1] at k2
    cases k1
    cases k2
    exact ⟨rfl, h⟩

/-- C73, what C46, C57, C70 and C71 assume of the ids of two processes (`DistinctIds`) holds iff no two events with the same number are created at the same moment: each of the
two processes has created at most 2^32 events, in whatever order (`Perm`). -/
theorem C73_distinct_iff {CA CB : Type} (s : System.Sys CA CB) (ops ops' : List IdGen.Op) (hr : RealClock ops) (hr' : RealClock ops')
    (ha : s.a.created.Perm ((IdGen.run {} ops).out.map Prod.snd)) (hb : s.b.created.Perm ((IdGen.run {} ops').out.map Prod.snd))
    (hl : (IdGen.run {} ops).out.length ≤ 2 ^ 32) (hl' : (IdGen.run {} ops').out.length ≤ 2 ^ 32) :
    System.DistinctIds s ↔ ∀ (i : Nat) (n n' : Now), (IdGen.run {} ops).used[i]? = some n → (IdGen.run {} ops').used[i]? = some n' → ¬ SameMoment n n' := by
  have hu := (idgen_used ops hr).1
  have hu' := (idgen_used ops' hr').1
  have hnd : System.DistinctIds s ↔ ∀ x ∈ (IdGen.run {} ops).out, ∀ y ∈ (IdGen.run {} ops').out, x.2 ≠ y.2 := by
    rw [System.DistinctIds, (ha.append hb).nodup_iff, List.nodup_append]
    constructor
    · rintro ⟨-, -, h⟩ x hx y hy
      exact h _ (List.mem_map_of_mem hx) _ (List.mem_map_of_mem hy)
    · intro h
      refine ⟨C14_nodup ops hl, C14_nodup ops' hl', ?_⟩
      intro x hx y hy
      obtain ⟨x', hx', rfl⟩ := List.mem_map.1 hx
      obtain ⟨y', hy', rfl⟩ := List.mem_map.1 hy
      exact h x' hx' y' hy'
  rw [hnd]
  constructor
  · intro h i n n' hn hn' hm
    have hi : i < (IdGen.run {} ops).out.length := by rw [← hu]; exact (List.getElem?_eq_some_iff.1 hn).1
    have hi' : i < (IdGen.run {} ops').out.length := by rw [← hu']; exact (List.getElem?_eq_some_iff.1 hn').1
    exact h _ (List.getElem_mem hi) _ (List.getElem_mem hi')
      ((C73_collide_iff ops ops' hr hr' i i _ _ _ _ (List.getElem?_eq_getElem hi) (List.getElem?_eq_getElem hi') (by omega) (by omega)).2 ⟨rfl, n, n', hn, hn', hm⟩)
  · intro h x hx y hy hxy
    obtain ⟨i, hi, rfl⟩ := List.getElem_of_mem hx
    obtain ⟨j, hj, rfl⟩ := List.getElem_of_mem hy
    obtain ⟨-, n, n', hn, hn', hm⟩ :=
      (C73_collide_iff ops ops' hr hr' i j _ _ _ _ (List.getElem?_eq_getElem hi) (List.getElem?_eq_getElem hj) (by omega) (by omega)).1 hxy
    exact h i n n' hn hn' hm

/-- C73, both sides in one process (as in tests): they share the counter, so the assumption holds for the first 2^32 events of both together. -/
theorem C73_same_process {CA CB : Type} (s : System.Sys CA CB) (ops : List IdGen.Op)
    (hp : (s.a.created ++ s.b.created).Perm ((IdGen.run {} ops).out.map Prod.snd)) (hl : (IdGen.run {} ops).out.length ≤ 2 ^ 32) :
    System.DistinctIds s := hp.nodup_iff.2 (C14_nodup ops hl)

/-- The clock of both processes in `C73_violated`. -/
def sameNow : Now := ⟨1700000000, 250⟩

/-- Two calls at that moment. -/
def twoCalls : List IdGen.Op := [.clock 0 (some sameNow), .fetch 0, .clock 0 (some sameNow), .fetch 0]

/-- Both processes create their first events in the same millisecond: the first side a request, the second an event "ping". -/
def opsCollide : List System.Op :=
  [.left (.request 0 (.conn 0) .single none "q" [] (eventId sameNow 0)), .left (.sent 0),
   .right (.emit (.conn 0) none "ping" [] (eventId sameNow 0)),
   .toLeft 0, .left (.take 0 0), .left (.handlerDone 0 (.ok [])), .left (.respond 0 (eventId sameNow 1)), .left (.cleanup 0),
   .toRight 0, .right (.take 0 0), .right (.handlerDone 0 (.ok [])), .right (.respond 0 (eventId sameNow 1)), .right (.cleanup 0),
   .toLeft 0, .left (.take 0 1), .left (.chanClosed 0)]

/-- C73 is not as a user may expect: two processes that create their first events in the same millisecond. The first makes a request, the second emits an event; the first handles
this event, and that removes the listener of its own request. The second side handles and answers the request, the answer arrives - and is ignored; the request ends with an error
(the channel is closed). -/
theorem C73_violated : ∃ (s : System.Sys Nat Nat) (q : Endpoint.Req) (answer : Event), System.Reachable demo demo (fun _ => true) s ∧
    s.a.created = (IdGen.run {} twoCalls).out.map Prod.snd ∧ s.b.created = (IdGen.run {} twoCalls).out.map Prod.snd ∧ RealClock twoCalls ∧
    s.a.reqs 0 = some q ∧ emittedBy s.b 0 (.final 0) = [answer] ∧ IsAnswer demo.fmtDebug q.event (.ok []) answer ∧
    answer ∈ handledOn s.a 0 ∧ q.phase = .finished .closed ∧ q.popped = [] := by
  obtain ⟨s, hs⟩ : ∃ s, System.run demo demo (fun _ => true) {} opsCollide = some s := ⟨_, rfl⟩
  refine ⟨s, (s.a.reqs 0).get (by cases hs; rfl), Event.new (eventId sameNow 1) none "end" [] (some (eventId sameNow 0)) .end, ⟨_, hs⟩, ?_, ?_, ?_, ?_, ?_, ?_, ?_, ?_, ?_⟩
  · cases hs; rfl
  · cases hs; rfl
  · intro t now h
    simp only [twoCalls, List.mem_cons, List.not_mem_nil, or_false, IdGen.Op.clock.injEq, Option.some.injEq, reduceCtorEq, false_or] at h
    rcases h with ⟨-, rfl⟩ | ⟨-, rfl⟩ <;> decide
  · simp
  · cases hs; rfl
  · cases hs; exact ⟨rfl, rfl, rfl, rfl, rfl⟩
  · cases hs; decide +kernel
  · cases hs; rfl
  · cases hs; rfl

/-- Two processes that start in different milliseconds. -/
example : ∀ (i : Nat) (n n' : Now), (IdGen.run {} twoCalls).used[i]? = some n →
    (IdGen.run {} [.clock 3 (some ⟨1700000000, 251⟩), .fetch 3]).used[i]? = some n' → ¬ SameMoment n n' := by
  intro i n n' h1 h2
  match i with
  | 0 => cases h1; cases h2; rintro ⟨-, h⟩; revert h; decide
  | i + 1 => cases h2

end Bromine.Props
