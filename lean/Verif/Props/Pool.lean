import Verif.Lemmas.Pool
/-
C31 (acquire), C32, C33: connection pools.
-/
namespace Bromine.Props
open Pool Spec

variable {n : Nat}

/-- While a pool handle is alive every context has a live guard. -/
theorem live_pos {s : State} (h : Reachable n s) (hp : poolAlive s) {i : Nat} (hi : i < n) : 1 ≤ live s i := by
  obtain ⟨x, hx, hr⟩ := hp
  obtain ⟨p, hpx⟩ := List.getElem?_of_mem hx
  obtain ⟨hlo, hhi⟩ := (h.inv.shape p x hpx).1 hr
  have : 0 < s.handles.countP fun h => decide (h.lo ≤ i ∧ i < h.hi) :=
    List.countP_pos_iff.2 ⟨x, hx, by simp [hlo, hhi, hi]⟩
  simp only [live]
  omega

/-- **C32.** At every moment (also in the middle of an `acquire`, `clone` or `drop` of any threads) the usage count of
a pooled connection is the number of its live guards beyond the first, as long as there is a live guard for it; the number of
guards is limited by the size of `usize`. -/
theorem C32_exact {s : State} (h : Reachable n s) {i : Nat} (hi : i < n) (h1 : 1 ≤ live s i) (h2 : live s i ≤ 2 ^ 64) :
    (s.count i).toNat + 1 = live s i := by
  have := h.inv.cnt i hi
  have hu : s.count i = UInt64.ofNat (live s i - 1) := by
    have e : UInt64.ofNat (live s i) = UInt64.ofNat (live s i - 1) + 1 := by
      conv => lhs; rw [show live s i = (live s i - 1) + 1 by omega]
      rw [UInt64.ofNat_add]; rfl
    rw [e] at this
    exact (UInt64.add_left_inj _).1 this
  rw [hu, UInt64.toNat_ofNat', Nat.mod_eq_of_lt (by omega)]
  omega

/-- **C32.** In particular it is exact as long as a pool handle is alive. -/
theorem C32_exact_while_alive {s : State} (h : Reachable n s) (hp : poolAlive s) {i : Nat} (hi : i < n)
    (h2 : live s i ≤ 2 ^ 64) : (s.count i).toNat + 1 = live s i :=
  C32_exact h hi (live_pos h hp hi) h2

/-- **C32.** With a single pool handle the usage count is the number of guards that have been acquired or cloned and
not yet dropped. -/
theorem C32_single_handle {s : State} (h : Reachable n s) {x : Handle} (hs : s.handles = [x]) (hr : x.phase = .ready)
    {i : Nat} (hi : i < n) (h2 : s.guards.count i < 2 ^ 64) : (s.count i).toNat = s.guards.count i := by
  have hsh := (h.inv.shape 0 x (by rw [hs]; rfl)).1 hr
  have hl : live s i = s.guards.count i + 1 := by simp [live, hs, hsh.1, hsh.2, hi]
  have := C32_exact h hi (by omega) (by omega)
  omega

/-- **C32.** While a pool handle is alive, dropping a guard never makes the count underflow: it goes down by one. -/
theorem C32_no_underflow {s s' : State} (h : Reachable n s) (hp : poolAlive s) {k i : Nat} (hk : s.guards[k]? = some i)
    (hs : step n s (.drop k) = some s') (h2 : live s i ≤ 2 ^ 64) : (s'.count i).toNat + 1 = (s.count i).toNat := by
  have hi : i < n := h.inv.guards i (List.mem_of_getElem? hk)
  have e1 := C32_exact_while_alive h hp hi h2
  have hp' : poolAlive s' := by
    simp only [step, hk] at hs; cases hs; exact hp
  have hl : live s' i + 1 = live s i := by
    simp only [step, hk] at hs; cases hs
    have := @live_drop s (setCount s i (s.count i - 1)) i i k hk
    simpa using this
  have e2 := C32_exact_while_alive (h.step hs) hp' hi (by omega)
  omega

/-- **C32.** A count is only ever read while a pool handle is alive, so every count that `acquire` compares is exact. -/
theorem C32_reads_exact {s s' : State} (h : Reachable n s) {a : Nat} {q : Acquire}
    (hq : s.acquires[a]? = some (some q)) (hs : step n s (.load a) = some s')
    (h2 : live s q.next ≤ 2 ^ 64) :
    poolAlive s ∧ ∃ q', s'.acquires[a]? = some (some q') ∧ ∃ c, q'.seen = q.seen ++ [c] ∧ c.toNat + 1 = live s q.next := by
  obtain ⟨_, ⟨x, hx, hr⟩, _⟩ := h.inv.acq a q hq
  have hp : poolAlive s := ⟨x, List.mem_of_getElem? hx, hr⟩
  simp only [step, hq] at hs
  split at hs <;> cases hs
  rename_i hlt
  exact ⟨hp, _, List.getElem?_set_self (List.getElem?_eq_some_iff.1 hq).1, _, rfl, C32_exact_while_alive h hp hlt h2⟩

/-- **C32.** When the last guard of a connection is gone (so also all pool handles) the count has wrapped around; by
`C32_reads_exact` nobody can read it any more. -/
theorem C32_wraps_at_the_end {s : State} (h : Reachable n s) {i : Nat} (hi : i < n) (h0 : live s i = 0) :
    (s.count i).toNat = 2 ^ 64 - 1 ∧ ¬ poolAlive s := by
  refine ⟨?_, fun hp => by have := live_pos h hp hi; omega⟩
  have := h.inv.cnt i hi
  rw [h0] at this
  have e : s.count i = UInt64.ofNat (2 ^ 64 - 1) := by
    have e2 : (UInt64.ofNat 0) = UInt64.ofNat (2 ^ 64 - 1) + 1 := by decide
    rw [e2] at this
    exact (UInt64.add_left_inj _).1 this
  rw [e]
  decide

/-- Pool of two; acquire, clone the pool, acquire from the clone, drop one guard. -/
def poolOps : List Pool.Op := [.start 0, .load 0, .load 0, .take 0, .cloneStart 0, .cloneNext 1, .cloneNext 1, .cloneNext 1,
  .start 1, .load 1, .load 1, .take 1, .clone 1, .drop 0]

/-- The hypotheses can be met. -/
example : ∃ s, Reachable 2 s ∧ poolAlive s ∧ live s 1 = 4 ∧ s.count 1 = 3 ∧ s.guards = [1, 1] ∧ s.acquired = [0, 1] := by
  refine ⟨_, ⟨poolOps, rfl⟩, ⟨⟨.ready, 0, 2⟩, ?_, rfl⟩, ?_, ?_, rfl, rfl⟩ <;> decide +kernel

/-- The last guard of a context can go, after the pool. -/
example : ∃ s, Reachable 1 s ∧ live s 0 = 0 := by
  refine ⟨_, ⟨[.start 0, .load 0, .take 0, .dropStart 0, .dropNext 0, .drop 0], rfl⟩, ?_⟩
  decide +kernel

/-- Dropping the guards of a handle that is being dropped. -/
theorem dropNexts (p k : Nat) : ∀ (s : State) (lo hi : Nat), s.handles[p]? = some ⟨.dropping, lo, hi⟩ → lo + k ≤ hi →
    ∃ s', run n s (List.replicate k (.dropNext p)) = some s' ∧ s'.handles = s.handles.set p ⟨.dropping, lo + k, hi⟩ ∧
      s'.guards = s.guards ∧ s'.acquires = s.acquires ∧ s'.acquired = s.acquired ∧
      ∀ i, s'.count i = if lo ≤ i ∧ i < lo + k then s.count i - 1 else s.count i := by
  induction k with
  | zero =>
    intro s lo hi hp _
    refine ⟨s, rfl, ?_, rfl, rfl, rfl, fun i => by rw [if_neg (by omega)]⟩
    obtain ⟨h1, h2⟩ := List.getElem?_eq_some_iff.1 hp
    rw [Nat.add_zero, ← h2, List.set_getElem_self]
  | succ k ih =>
    intro s lo hi hp hk
    have hlt := (List.getElem?_eq_some_iff.1 hp).1
    obtain ⟨s', e1, e2, e3, e4, e5, e6⟩ := ih { s with count := setCount s lo (s.count lo - 1), handles := s.handles.set p ⟨.dropping, lo + 1, hi⟩ } (lo + 1) hi
      (List.getElem?_set_self hlt) (by omega)
    refine ⟨s', ?_, ?_, e3, e4, e5, fun i => ?_⟩
    · rw [List.replicate_succ]
      simp only [run, step, hp]
      rw [if_pos ⟨trivial, by omega⟩]
      exact e1
    · rw [e2]; simp only [List.set_set]; congr 2; omega
    · rw [e6 i]
      simp only [setCount]
      by_cases h1 : i = lo
      · subst h1; rw [if_neg (by omega), if_pos rfl, if_pos (by omega)]
      · by_cases h2 : lo + 1 ≤ i ∧ i < lo + 1 + k
        · rw [if_pos h2, if_neg h1, if_pos (by omega)]
        · rw [if_neg h2, if_neg h1, if_neg (by omega)]

/-- **C32.** Dropping a pool handle that no `acquire` and no `clone` is using just now gives back exactly one unit of every connection: it runs through all of them, and leaves no
guard of the handle behind. -/
theorem C32_drop_completes {s : State} (h : Reachable n s) {p : Nat} {x : Handle} (hp : s.handles[p]? = some x) (hr : x.phase = .ready)
    (hacq : ∀ (a : Nat) (q : Acquire), s.acquires[a]? = some (some q) → q.pool ≠ p) (hclo : ∀ y ∈ s.handles, y.phase ≠ .cloning p) :
    ∃ s', run n s (.dropStart p :: List.replicate n (.dropNext p)) = some s' ∧ s'.guards = s.guards ∧
      (∀ i < n, s'.count i = s.count i - 1 ∧ live s' i + 1 = live s i) ∧ step n s' (.dropNext p) = none := by
  have hb : borrowed s p = false := by
    simp only [borrowed, Bool.or_eq_false_iff, List.any_eq_false, decide_eq_true_eq]
    refine ⟨fun a ha => ?_, hclo⟩
    obtain ⟨i, hi⟩ := List.getElem?_of_mem ha
    cases a with
    | none => simp
    | some q => simpa using hacq i q hi
  obtain ⟨h1, h2⟩ := (h.inv.shape p x hp).1 hr
  obtain ⟨ph, lo, hi⟩ := x
  simp only at h1 h2 hr
  subst h1; subst h2; subst hr
  have hlt := (List.getElem?_eq_some_iff.1 hp).1
  obtain ⟨s', e1, e2, e3, e4, e5, e6⟩ := dropNexts (n := hi) p hi { s with handles := s.handles.set p ⟨.dropping, 0, hi⟩ } 0 hi (List.getElem?_set_self hlt) (by omega)
  have hr' : run hi s (.dropStart p :: List.replicate hi (.dropNext p)) = some s' := by
    simp only [run, step, hp]
    rw [if_pos ⟨trivial, hb⟩]
    exact e1
  refine ⟨s', hr', e3, fun i hi' => ⟨?_, ?_⟩, ?_⟩
  · rw [e6 i, if_pos ⟨by omega, by omega⟩]
  · have hls := live_set (s := s) (p := p) (i := i) (h := ⟨.ready, 0, hi⟩) (h' := ⟨.dropping, hi, hi⟩) hp s'.count
    have hl : live s' i = live { s with count := s'.count, handles := s.handles.set p ⟨.dropping, hi, hi⟩ } i := by
      simp only [live, e3, e2, List.set_set, Nat.zero_add]
    rw [hl]
    simp only [hi', Nat.zero_le, and_self, if_true] at hls
    rw [if_neg (by omega)] at hls
    exact hls
  · have : s'.handles[p]? = some ⟨.dropping, hi, hi⟩ := by
      rw [e2, List.set_set, List.getElem?_set_self hlt, Nat.zero_add]
    simp [step, this]

/-- Cloning the guards of a handle that is being cloned. -/
theorem cloneNexts (p src k : Nat) : ∀ (s : State) (hi : Nat), s.handles[p]? = some ⟨.cloning src, 0, hi⟩ → hi + k ≤ n →
    ∃ s', run n s (List.replicate k (.cloneNext p)) = some s' ∧ s'.handles = s.handles.set p ⟨.cloning src, 0, hi + k⟩ ∧
      s'.guards = s.guards ∧ ∀ i, s'.count i = if hi ≤ i ∧ i < hi + k then s.count i + 1 else s.count i := by
  induction k with
  | zero =>
    intro s hi hp _
    refine ⟨s, rfl, ?_, rfl, fun i => by rw [if_neg (by omega)]⟩
    obtain ⟨h1, h2⟩ := List.getElem?_eq_some_iff.1 hp
    rw [Nat.add_zero, ← h2, List.set_getElem_self]
  | succ k ih =>
    intro s hi hp hk
    have hlt := (List.getElem?_eq_some_iff.1 hp).1
    obtain ⟨s', e1, e2, e3, e6⟩ := ih { s with count := setCount s hi (s.count hi + 1), handles := s.handles.set p ⟨.cloning src, 0, hi + 1⟩ } (hi + 1)
      (List.getElem?_set_self hlt) (by omega)
    refine ⟨s', ?_, ?_, e3, fun i => ?_⟩
    · rw [List.replicate_succ]
      simp only [run, step, hp]
      rw [if_pos (by omega)]
      exact e1
    · rw [e2]; simp only [List.set_set]; congr 2; omega
    · rw [e6 i]
      simp only [setCount]
      by_cases h1 : i = hi
      · subst h1; rw [if_neg (by omega), if_pos rfl, if_pos (by omega)]
      · by_cases h2 : hi + 1 ≤ i ∧ i < hi + 1 + k
        · rw [if_pos h2, if_neg h1, if_pos (by omega)]
        · rw [if_neg h2, if_neg h1, if_neg (by omega)]

/-- **C32.** Cloning a pool handle uses every connection once more, and gives a second handle that can be used. -/
theorem C32_clone_completes {s : State} {p : Nat} {x : Handle} (hp : s.handles[p]? = some x) (hr : x.phase = .ready) :
    ∃ s', run n s (.cloneStart p :: (List.replicate n (.cloneNext s.handles.length) ++ [.cloneNext s.handles.length])) = some s' ∧
      s'.guards = s.guards ∧ s'.handles = s.handles ++ [⟨.ready, 0, n⟩] ∧
      ∀ i < n, s'.count i = s.count i + 1 ∧ live s' i = live s i + 1 := by
  obtain ⟨s', e1, e2, e3, e6⟩ := cloneNexts (n := n) s.handles.length p n { s with handles := s.handles ++ [⟨.cloning p, 0, 0⟩] } 0
    (by simp) (by omega)
  rw [Nat.zero_add] at e2
  have e2' : s'.handles = s.handles ++ [⟨.cloning p, 0, n⟩] := by rw [e2]; simp
  refine ⟨{ s' with handles := s.handles ++ [⟨.ready, 0, n⟩] }, ?_, e3, rfl, fun i hi => ⟨?_, ?_⟩⟩
  · have hc : step n s (.cloneStart p) = some { s with handles := s.handles ++ [⟨.cloning p, 0, 0⟩] } := by simp [step, hp, hr]
    rw [run, hc]
    simp only [Option.bind_some]
    rw [run_append e1]
    simp [run, step, e2']
  · simp only [e6 i]; rw [if_pos ⟨by omega, by omega⟩]
  · simp only [live, e3]
    rw [List.countP_append]
    simp [hi]
    omega

/-- The hypotheses can be met: the pool of `poolOps` has two handles that can be dropped. -/
example : ∃ s, Reachable 2 s ∧ s.handles[1]? = some ⟨.ready, 0, 2⟩ ∧ (∀ (a : Nat) (q : Acquire), s.acquires[a]? = some (some q) → q.pool ≠ 1) ∧ ∀ y ∈ s.handles, y.phase ≠ .cloning 1 := by
  refine ⟨_, ⟨poolOps, rfl⟩, ?_, ?_, ?_⟩
  · decide +kernel
  · intro a q h
    have : some q ∈ [none, (none : Option Acquire)] := List.mem_of_getElem? h
    simp at this
  · decide +kernel

/-! ### C31: acquire does not panic -/

/-- **C31.** On a pool with at least one connection (the builder refuses others, `C31_pool_zero`) `acquire` never
panics, whatever other threads do. -/
theorem C31_acquire_never_panics (hn : 0 < n) {s : State} (h : Reachable n s) (a : Nat) : ¬ acquirePanics n s a := by
  rintro ⟨q, hq, h1, h2⟩
  obtain ⟨_, _, h3, _⟩ := h.inv.acq a q hq
  have := h3.1 h2
  omega

/-- The check in the builder is needed: without connections `acquire` would panic. -/
theorem C31_empty_pool_panics : ∃ s, Reachable 0 s ∧ acquirePanics 0 s 0 :=
  ⟨_, ⟨[.start 0], rfl⟩, _, rfl, rfl, rfl⟩

/-! ### C33 -/

/-- **C33.** Whatever happens in other threads, `acquire` returns the first of the connections whose count, as loaded
by this call, was least. -/
theorem C33_least_of_loaded {s s' : State} (h : Reachable n s) {a : Nat} {q : Acquire}
    (hq : s.acquires[a]? = some (some q)) (hs : step n s (.take a) = some s') :
    ∃ i, s'.acquired = s.acquired ++ [i] ∧ s'.guards = s.guards ++ [i] ∧ q.seen.length = n ∧
      FirstLeast (fun j => (q.seen[j]?.getD 0).toNat) n i := by
  have hsc := h.scan a q hq
  simp only [step, hq] at hs
  split at hs <;> try cases hs
  rename_i hn
  split at hs <;> cases hs
  rename_i i k hb
  obtain ⟨h1, h2, h3⟩ := hsc.best i k hb
  have hlen : q.seen.length = n := by rw [hsc.len, hn]
  have hi := (List.getElem?_eq_some_iff.1 h1).1
  have get : ∀ j, j < n → q.seen[j]? = some (q.seen[j]?.getD 0) := by
    intro j hj
    rw [List.getElem?_eq_getElem (by omega)]
    rfl
  refine ⟨i, rfl, rfl, hlen, by omega, ?_, ?_⟩
  · intro j hj
    have := h2 j _ (get j hj)
    simp only [h1, Option.getD_some]
    exact UInt64.le_iff_toNat_le.1 this
  · intro j hj
    have := h3 j _ hj (get j (by omega))
    simp only [h1, Option.getD_some]
    exact UInt64.lt_iff_toNat_lt.1 this

/-- **C33.** An `acquire` that is not disturbed succeeds and returns the first of the connections with the least number of
live guards; this number then goes up by one, and nothing else changes. -/
theorem C33_first_least (hn : 0 < n) {s : State} (h : Reachable n s) {p : Nat} {x : Handle}
    (hp : s.handles[p]? = some x) (hr : x.phase = .ready) (hb : ∀ j < n, live s j ≤ 2 ^ 64) :
    ∃ s' i, acquire n s p = some s' ∧ s'.acquired = s.acquired ++ [i] ∧ s'.guards = s.guards ++ [i] ∧
      FirstLeast (live s) n i ∧ s'.handles = s.handles ∧ ∀ j, live s' j = live s j + if j = i then 1 else 0 := by
  obtain ⟨s1, hs1⟩ : ∃ s1 : State, s1 = { s with acquires := s.acquires ++ [some { pool := p, next := 0, best := none, seen := [] }] } := ⟨_, rfl⟩
  have hst : step n s (.start p) = some s1 := by simp only [step, hp, hr, if_true, hs1]
  have hre1 := h.step hst
  have ha1 : s1.acquires[s.acquires.length]? = some (some { pool := p, next := 0, best := none, seen := [] }) := by simp [hs1]
  obtain ⟨q', hl1, hl2, hl3, hl4⟩ := loads (n := n) n ha1 (hre1.scan _ _ ha1) (by simp)
  have hlen1 : s.acquires.length < s1.acquires.length := by simp [hs1]
  obtain ⟨s2, hs2⟩ : ∃ s2 : State, s2 = { s1 with acquires := s1.acquires.set s.acquires.length (some q') } := ⟨_, rfl⟩
  rw [← hs2] at hl1
  have ha2 : s2.acquires[s.acquires.length]? = some (some q') := by rw [hs2]; simp [hlen1]
  have hre2 := hre1.run hl1
  have hnext : q'.next = n := by simpa using hl3
  have hseen : q'.seen = (List.range n).map s.count := by
    rw [hl4]; simp [hs1, List.range_eq_range']
  cases hbst : q'.best with
  | none => have := hl2.none hbst; omega
  | some b =>
    obtain ⟨i, k⟩ := b
    have htk : step n s2 (.take s.acquires.length) = some { s2 with acquires := s2.acquires.set s.acquires.length none, count := setCount s2 i (s2.count i + 1), guards := s2.guards ++ [i], acquired := s2.acquired ++ [i] } := by
      simp only [step, ha2, hnext, if_true, hbst]
    obtain ⟨i', e1, e2, _, e4⟩ := C33_least_of_loaded hre2 ha2 htk
    have hii : i' = i := by simpa using e1.symm
    subst hii
    have hrun : ∀ z, step n s2 (.take s.acquires.length) = some z → acquire n s p = some z := by
      intro z hz
      simp only [acquire]
      rw [List.cons_append, run, hst, Option.bind_some, run_append hl1, run, hz, Option.bind_some, run]
    refine ⟨_, i', hrun _ htk, ?_, ?_, ?_, ?_, ?_⟩
    · simp [hs2, hs1]
    · simp [hs2, hs1]
    · have hval : ∀ j, j < n → (q'.seen[j]?.getD 0).toNat + 1 = live s j := by
        intro j hj
        rw [hseen]
        simp only [List.getElem?_map, List.getElem?_range hj, Option.map_some, Option.getD_some]
        exact C32_exact_while_alive h ⟨x, List.mem_of_getElem? hp, hr⟩ hj (hb j hj)
      obtain ⟨f1, f2, f3⟩ := e4
      refine ⟨f1, fun j hj => ?_, fun j hj => ?_⟩
      · have := f2 j hj; have := hval j hj; have := hval i' f1; simp only at *; omega
      · have := f3 j hj; have := hval j (by omega); have := hval i' f1; simp only at *; omega
    · simp [hs2, hs1]
    · intro j
      rw [live_guard]
      simp [live, hs2, hs1]

/-- `m` calls of `acquire` on the same handle, one after the other. -/
def acquireMany (n : Nat) (p : Nat) : Nat → State → Option State
  | 0, s => some s
  | m + 1, s => (acquire n s p).bind (acquireMany n p m)

theorem acquire_reachable {s s' : State} (h : Reachable n s) {p : Nat} (ha : acquire n s p = some s') : Reachable n s' :=
  h.run ha

/-- **C33.** From a state in which the usage counts differ by at most one, any number of acquires without releases keeps it so. -/
theorem C33_balanced (hn : 0 < n) (m : Nat) : ∀ {s : State} (_ : Reachable n s) {p : Nat} {x : Handle}
    (_ : s.handles[p]? = some x) (_ : x.phase = .ready) (_ : ∀ j < n, live s j + m ≤ 2 ^ 64)
    (_ : ∀ i < n, ∀ j < n, live s i ≤ live s j + 1),
    ∃ s', acquireMany n p m s = some s' ∧ s'.guards.length = s.guards.length + m ∧
      ∀ i < n, ∀ j < n, live s' i ≤ live s' j + 1 := by
  induction m with
  | zero => intro s _ p x _ _ _ hbal; exact ⟨s, rfl, rfl, hbal⟩
  | succ m ih =>
    intro s h p x hp hr hb hbal
    obtain ⟨s1, i, h1, _, h3, ⟨h4, h5, _⟩, h6, h7⟩ := C33_first_least hn h hp hr (fun j hj => by have := hb j hj; omega)
    obtain ⟨s', k1, k2, k3⟩ := ih (acquire_reachable h h1) (p := p) (x := x) (by rw [h6]; exact hp) hr
      (fun j hj => by have := hb j hj; rw [h7]; split <;> omega)
      (fun a ha b hb' => by
        have := hbal a ha b hb'
        have := h5 a ha
        have := h5 b hb'
        rw [h7, h7]
        split
        · rename_i hai; subst hai; omega
        · omega)
    refine ⟨s', by simp [acquireMany, h1, k1], by rw [k2, h3]; simp; omega, k3⟩

/-- **C33.** `m` acquires on a fresh pool go round robin: call number `k` gets connection `k mod n`. -/
theorem C33_round_robin (hn : 0 < n) (m : Nat) (hm : m < 2 ^ 64) :
    ∃ s', acquireMany n 0 m (init n) = some s' ∧ s'.acquired = (List.range m).map (· % n) := by
  suffices ∀ (m k : Nat) (s : State), Reachable n s → s.handles[0]? = some ⟨.ready, 0, n⟩ → k + m < 2 ^ 64 →
      s.acquired = (List.range k).map (· % n) → (∀ j < n, live s j = 1 + k / n + if j < k % n then 1 else 0) →
      ∃ s', acquireMany n 0 m s = some s' ∧ s'.acquired = (List.range (k + m)).map (· % n) by
    obtain ⟨s', h1, h2⟩ := this m 0 (init n) ⟨[], rfl⟩ rfl (by omega) (by simp [init])
      (fun j hj => by simp [live, init, hj])
    exact ⟨s', h1, by simpa using h2⟩
  intro m
  induction m with
  | zero => intro k s _ _ _ hk _; exact ⟨s, rfl, hk⟩
  | succ m ih =>
    intro k s h hp hlt hacq hl
    have hkn : k / n ≤ k := Nat.div_le_self _ _
    have hmod : k % n < n := Nat.mod_lt _ hn
    obtain ⟨s1, i, h1, h2, _, ⟨h4, h5, h5'⟩, h6, h7⟩ := C33_first_least hn h hp rfl
      (fun j hj => by rw [hl j hj]; split <;> omega)
    have hi : i = k % n := by
      rcases Nat.lt_trichotomy i (k % n) with hlt' | heq | hgt
      · have := h5 (k % n) hmod
        rw [hl i h4, hl _ hmod, if_pos hlt', if_neg (by omega)] at this
        omega
      · exact heq
      · have := h5' (k % n) hgt
        rw [hl i h4, hl _ hmod, if_neg (by omega), if_neg (by omega)] at this
        omega
    obtain ⟨s', k1, k2⟩ := ih (k + 1) s1 (acquire_reachable h h1) (by rw [h6]; exact hp) (by omega)
      (by rw [h2, hacq, hi, List.range_succ]; simp)
      (fun j hj => by
        rw [h7, hl j hj, hi]
        have hdm := Nat.div_add_mod k n
        by_cases hw : k % n + 1 = n
        · have e : k + 1 = n * (k / n + 1) := by rw [Nat.mul_add]; omega
          rw [e, Nat.mul_div_cancel_left _ hn, Nat.mul_mod_right]
          rcases Nat.lt_trichotomy j (k % n) with h | h | h
          · rw [if_pos h, if_neg (by omega)]; simp; omega
          · rw [if_neg (by omega), if_pos h]; simp; omega
          · omega
        · have e : k + 1 = n * (k / n) + (k % n + 1) := by omega
          have hlt2 : k % n + 1 < n := by omega
          have e1 : (k + 1) / n = k / n := by
            conv => lhs; rw [e, Nat.mul_add_div hn, Nat.div_eq_of_lt hlt2, Nat.add_zero]
          have e2 : (k + 1) % n = k % n + 1 := by
            conv => lhs; rw [e, Nat.mul_add_mod, Nat.mod_eq_of_lt hlt2]
          rw [e1, e2]
          rcases Nat.lt_trichotomy j (k % n) with h | h | h
          · rw [if_pos h, if_neg (by omega), if_pos (by omega)]
          · rw [if_neg (by omega), if_pos h, if_pos (by omega)]
          · rw [if_neg (by omega), if_neg (by omega), if_neg (by omega)])
    refine ⟨s', by simp [acquireMany, h1, k1], ?_⟩
    rw [k2]
    congr 2
    omega

/-- **C33, concurrent calls.** Loading the counters and counting the new guard is not one step: two concurrent
acquires can both get the first connection although the second one is unused. -/
theorem C33_race : ∃ s, Reachable 2 s ∧ s.guards = [0, 0] ∧ live s 0 = 3 ∧ live s 1 = 1 := by
  refine ⟨_, ⟨[.start 0, .start 0, .load 0, .load 1, .load 0, .load 1, .take 0, .take 1], rfl⟩, rfl, ?_, ?_⟩ <;> decide +kernel

end Bromine.Props
