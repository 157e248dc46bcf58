import Verif.Spec.DropLink
import Verif.Props.CryptDrop
import Verif.Lemmas.Link
import Verif.Lemmas.Stack
import Verif.Lemmas.Lossy
/-
An encrypted connection with dropped emits loses events at most.
-/
namespace Bromine.Link
open Bromine Spec CryptIO CryptBytes Props

theorem complete_unique {p p' x x' : Bytes} (h : complete p = true) (h' : complete p' = true) (he : p ++ x = p' ++ x') : p = p' ∧ x = x' := by
  have key : ∀ {p p' z : Bytes}, complete p = true → complete p' = true → p' = p ++ z → z = [] := by
    intro p p' z h h' he
    by_cases hz : z = []
    · exact hz
    · have := incomplete_of_cut h' he hz p [] (by simp)
      rw [h] at this; cases this
  rcases List.append_eq_append_iff.1 he with ⟨z, g1, g2⟩ | ⟨z, g1, g2⟩
  · have := key h h' g1; subst this; simp at g1 g2; exact ⟨g1.symm, g2⟩
  · have := key h' h g1; subst this; simp at g1 g2; exact ⟨g1, g2.symm⟩

theorem package_pos {A : Aead} {key : Bytes} {i : Nat} {m pkg : Bytes} (h : Package A key i m pkg) : pkg ≠ [] := by
  have := (package_complete h).1
  rintro rfl
  simp [complete] at this

/-- The beginning of a sequence of packages determines what is in them. -/
theorem packages_prefix {A : Aead} {key : Bytes} : ∀ {ms ms' : List Bytes} {i : Nat} {bs x : Bytes}, Packages A key i ms bs →
    Packages A key i ms' (bs ++ x) → ∃ more, ms' = ms ++ more ∧ Packages A key (i + ms.length) more x := by
  intro ms
  induction ms with
  | nil => intro ms' i bs x h h'; cases h; exact ⟨ms', rfl, h'⟩
  | cons m ms ih =>
    intro ms' i bs x h h'
    obtain ⟨pkg, rest, h1, rfl, h2⟩ := h
    cases ms' with
    | nil =>
      have h' : pkg ++ rest ++ x = [] := h'
      simp only [List.append_eq_nil_iff] at h'
      exact absurd h'.1.1 (package_pos h1)
    | cons m' ms' =>
      obtain ⟨pkg', rest', g1, g2, g3⟩ := h'
      obtain ⟨c1, d1⟩ := package_complete h1
      obtain ⟨c2, d2⟩ := package_complete g1
      rw [List.append_assoc] at g2
      obtain ⟨rfl, rfl⟩ := complete_unique c1 c2 g2
      rw [d1] at d2
      cases d2
      obtain ⟨more, k1, k2⟩ := ih h2 g3
      exact ⟨more, by rw [k1]; rfl, by rw [List.length_cons, Nat.add_comm ms.length, ← Nat.add_assoc]; exact k2⟩

/-- Frames are decoded in one way only. -/
theorem framesOf_inj : ∀ {a b : List Event}, (∀ e ∈ a, Small e) → (∀ e ∈ b, Small e) → framesOf a = framesOf b → a = b := by
  intro a
  induction a with
  | nil =>
    intro b _ hb h
    cases b with
    | nil => rfl
    | cons e b =>
      have := (sized_of_small (hb e (by simp))).1
      rw [framesOf_cons] at h
      have h := congrArg List.length h
      rw [show framesOf [] = [] from rfl, List.length_append] at h
      simp only [List.length_nil] at h
      omega
  | cons e a ih =>
    intro b ha hb h
    cases b with
    | nil =>
      have := (sized_of_small (ha e (by simp))).1
      rw [framesOf_cons] at h
      have h := congrArg List.length h
      rw [show framesOf [] = [] from rfl, List.length_append] at h
      simp only [List.length_nil] at h
      omega
    | cons e' b =>
      rw [framesOf_cons, framesOf_cons] at h
      have h1 := Props.fromBytes_frame_append true (ha e (by simp)) (framesOf a)
      rw [h, Props.fromBytes_frame_append true (hb e' (by simp))] at h1
      simp only [Outcome.ok.injEq, Prod.mk.injEq] at h1
      obtain ⟨rfl, h1⟩ := h1
      rw [ih (fun x hx => ha x (by simp [hx])) (fun x hx => hb x (by simp [hx])) h1.symm]

theorem groups_prefix : ∀ {a b : List (List Event)} {more : List Bytes}, (∀ g ∈ a, ∀ e ∈ g, Small e) → (∀ g ∈ b, ∀ e ∈ g, Small e) →
    b.map framesOf = a.map framesOf ++ more → ∃ c, b = a ++ c ∧ c.map framesOf = more := by
  intro a
  induction a with
  | nil => intro b more _ _ h; exact ⟨b, rfl, h⟩
  | cons g a ih =>
    intro b more ha hb h
    cases b with
    | nil => simp at h
    | cons g' b =>
      simp only [List.map_cons, List.cons_append, List.cons.injEq] at h
      have := framesOf_inj (hb g' (by simp)) (ha g (by simp)) h.1
      subst this
      obtain ⟨c, rfl, hc⟩ := ih (fun g hg => ha g (by simp [hg])) (fun g hg => hb g (by simp [hg])) h.2
      exact ⟨c, rfl, hc⟩

/-- The invariant of the link: `gs` are the events of the packages that the receiver has taken in, `left` those of them that the receive loop
has not read yet. -/
structure DropInv (A : Aead) (key : Bytes) (log : List Encryption) (s : CryptState) (em rd : List Event) : Prop where
  run : ∃ ops, CryptWire.run A (CryptWire.init key log) ops = some s.w ∧ WritesFine ops
  log : s.w.log.map Prod.snd = em
  fresh : ∀ t, s.w.log.length ≤ t → s.w.tasks t = none
  taken : ∃ (gs : List (List Event)) (left : List Event) (bs : Bytes), Packages A key 0 (gs.map framesOf) bs ∧ rd ++ left = gs.flatten ∧
    s.rs = { dec := { key := key, count := UInt64.ofNat gs.length }, remaining := framesOf left } ∧
    bs ++ flat s.chunks = s.w.wire.take s.sent ∧ s.sent ≤ s.w.wire.length ∧ (∀ e ∈ gs.flatten, Small e)

theorem drop_run_snoc {A : Aead} {key : Bytes} {log : List Encryption} {w w' : CryptWire.State} {op : CryptWire.Op}
    (h : ∃ ops, CryptWire.run A (CryptWire.init key log) ops = some w ∧ WritesFine ops) (hs : CryptWire.step A w op = some w')
    (hf : ∀ t as, op = .poll t as → fineAns as = true) :
    ∃ ops, CryptWire.run A (CryptWire.init key log) ops = some w' ∧ WritesFine ops := by
  obtain ⟨ops, ho, hw⟩ := h
  refine ⟨ops ++ [op], ?_, ?_⟩
  · clear hw
    generalize CryptWire.init key log = s0 at ho
    induction ops generalizing s0 with
    | nil => simp only [CryptWire.run, Option.some.injEq] at ho; subst ho; simp [CryptWire.run, hs]
    | cons o ops ih =>
      simp only [CryptWire.run, Option.bind_eq_some_iff, List.cons_append] at ho ⊢
      obtain ⟨s1, h1, h2⟩ := ho
      exact ⟨s1, h1, ih s1 h2⟩
  · intro o ho' t as he
    simp only [List.mem_append, List.mem_singleton] at ho'
    rcases ho' with ho' | rfl
    · exact hw o ho' t as he
    · have := hf t as he
      simp only [fineAns, List.all_eq_true] at this
      exact ⟨fun er h => by simpa using this _ h, fun h => by simpa using this _ h⟩

theorem drop_shape {A : Aead} {s s' : CryptWire.State} {t : Nat} (hs : CryptWire.step A s (.drop t) = some s') :
    s'.wire = s.wire ∧ s'.log = s.log ∧ s.tasks t ≠ none ∧ ∀ u, u ≠ t → s'.tasks u = s.tasks u := by
  simp only [CryptWire.step] at hs
  split at hs <;> cases hs <;> (refine ⟨rfl, rfl, by simp_all, fun u hu => by simp [Wire.set, hu]⟩)

theorem drop_inv (A : Aead) (key : Bytes) (log : List Encryption) (checks : Bool) {s : (cryptDrops A key log checks).State} {em rd : List Event}
    (h : Hist (cryptDrops A key log checks) s em rd) (hg : ∀ e ∈ em, Fits e ∧ frameSize e + 1024 + 16 < 2 ^ 32) : DropInv A key log s em rd := by
  induction h with
  | init => exact ⟨⟨[], rfl, by simp [WritesFine]⟩, rfl, by simp [cryptDrops, crypt, halves], ⟨[], [], [], rfl, rfl, rfl, rfl, Nat.le_refl _, by simp⟩⟩
  | @step s s' em rd o h hs ih =>
    have ih := ih hg
    obtain ⟨gs, left, bs, t1, t2, t3, t4, t5, t6⟩ := ih.taken
    change dropStep A s o = some s' at hs
    cases o with
    | poll as =>
      simp only [dropStep] at hs
      split at hs
      · rename_i t ht
        split at hs
        · rename_i hfine
          obtain ⟨w, hw, rfl⟩ := Option.map_eq_some_iff.1 hs
          obtain ⟨e, hh, hlog, hoth, -⟩ := CryptWire.poll_shape hw
          obtain ⟨x, hx⟩ := poll_wire hw
          refine ⟨drop_run_snoc ih.run hw (fun t' as' he => by cases he; exact hfine), by rw [hlog]; exact ih.log, ?_,
            gs, left, bs, t1, t2, t3, ?_, ?_, t6⟩
          · intro t' ht'
            rw [hlog] at ht'
            have h1 := ih.fresh t' ht'
            have : t' ≠ t := by
              rintro rfl
              exact hh.not_other.1 h1
            rw [hoth t' this]; exact h1
          · simp only [hx]
            rw [List.take_append_of_le_length t5]; exact t4
          · simp only [hx, List.length_append]; omega
        · cases hs
      · cases hs
    | drop =>
      simp only [dropStep] at hs
      split at hs
      · rename_i t ht
        obtain ⟨w, hw, rfl⟩ := Option.map_eq_some_iff.1 hs
        obtain ⟨d1, d2, d3, d4⟩ := drop_shape hw
        refine ⟨drop_run_snoc ih.run hw (fun t' as' he => by cases he), by rw [d2]; exact ih.log, ?_,
          gs, left, bs, t1, t2, t3, by rw [d1]; exact t4, by rw [d1]; exact t5, t6⟩
        intro t' ht'
        rw [d2] at ht'
        have h1 := ih.fresh t' ht'
        have : t' ≠ t := by rintro rfl; exact d3 h1
        rw [d4 t' this]; exact h1
      · cases hs
    | deliver n =>
      simp only [dropStep] at hs
      obtain ⟨⟨k, cs⟩, hd, rfl⟩ := Option.map_eq_some_iff.1 hs
      refine ⟨ih.run, ih.log, ih.fresh, gs, left, bs, t1, t2, t3, ?_⟩
      simp only [deliver] at hd
      split at hd
      · rename_i hle
        cases hd
        refine ⟨?_, hle, t6⟩
        have h0 : flat [] = [] := rfl
        dsimp only
        rw [flat_append, flat_pushRest, h0, List.append_nil, ← List.append_assoc, t4]
        rw [show s.sent + n + 1 = s.sent + (n + 1) by omega, List.take_add (i := s.sent) (j := n + 1)]
      · cases hd
    | wait =>
      simp only [dropStep] at hs
      cases hs
      exact ⟨ih.run, ih.log, ih.fresh, gs, left, bs, t1, t2, t3, by rw [flat_append, show flat [Chunk.pending] = [] from rfl, List.append_nil]; exact t4, t5, t6⟩
  | @emit s s' em rd e h hs ih =>
    have ih := ih fun e' he' => hg e' (by simp [he'])
    obtain ⟨gs, left, bs, t1, t2, t3, t4, t5, t6⟩ := ih.taken
    change (((CryptWire.step A s.w (.start s.w.log.length e)).bind fun w => CryptWire.step A w (.lock s.w.log.length)).map fun w => { s with w := w }) = some s' at hs
    obtain ⟨w, hw, rfl⟩ := Option.map_eq_some_iff.1 hs
    obtain ⟨w1, hw1, hw⟩ := Option.bind_eq_some_iff.1 hw
    have hrun := drop_run_snoc (drop_run_snoc ih.run hw1 (fun _ _ he => by cases he)) hw (fun _ _ he => by cases he)
    simp only [CryptWire.step, ih.fresh _ (Nat.le_refl _), Option.some.injEq] at hw1
    subst hw1
    simp only [CryptWire.step, Wire.set, if_true] at hw
    cases hl : s.w.lock with
    | some t => rw [hl] at hw; cases hw
    | none =>
      rw [hl] at hw
      simp only [Option.some.injEq] at hw
      subst hw
      refine ⟨hrun, by simp [ih.log], ?_, gs, left, bs, t1, t2, t3, t4, t5, t6⟩
      intro t ht
      simp only [List.length_append, List.length_cons, List.length_nil] at ht
      have h1 : t ≠ s.w.log.length := by omega
      simp [Wire.set, h1, ih.fresh t (by omega)]
  | @read s s' em rd e h hs ih =>
    have ih := ih hg
    obtain ⟨gs, left, bs, t1, t2, t3, t4, t5, t6⟩ := ih.taken
    change (match Event.fromAsyncRead (CryptIO.cryptSource A) checks { rs := s.rs, script := { chunks := s.chunks, closed := false } } with
      | .ok (e, r) => some (e, { s with chunks := r.script.chunks, rs := r.rs })
      | _ => none) = some (e, s') at hs
    have hmid : ({ rs := s.rs, script := { chunks := s.chunks, closed := false } } : CryptIO.Reader) =
        midway { key := key, count := UInt64.ofNat gs.length } (framesOf left) s.chunks false := by rw [t3]; rfl
    rw [hmid] at hs
    cases left with
    | cons e0 left =>
      have hse : Small e0 := t6 e0 (by rw [← t2]; simp)
      rw [framesOf_cons, read_midway (Props.fromBytes_frame_append checks hse _)] at hs
      cases hs
      exact ⟨ih.run, ih.log, ih.fresh, gs, left, bs, t1, by rw [← t2]; simp, rfl, t4, t5, t6⟩
    | nil =>
      obtain ⟨ops, hr, hfine⟩ := ih.run
      obtain ⟨groups, pend, rest, k1, k2, k3, k4, k5⟩ := C45_wire_intact A key ops s.w hr hfine
        (fun t e he => hg e (by rw [← ih.log]; exact List.mem_map.2 ⟨_, he, rfl⟩))
      have hsm : ∀ e ∈ groups.flatten, Small e := by
        intro e he
        have := k5.subset (List.mem_append_left _ he)
        rw [ih.log] at this
        exact FitsBuffered.small (hg e this)
      have hwire : s.w.wire ++ rest = bs ++ (flat s.chunks ++ (s.w.wire.drop s.sent ++ rest)) := by
        rw [← List.append_assoc bs, t4, ← List.append_assoc, List.take_append_drop]
      have k1' : Packages A key 0 (groups.map framesOf) (bs ++ (flat s.chunks ++ (s.w.wire.drop s.sent ++ rest))) := by
        rw [← hwire]; exact k1
      obtain ⟨more, m1, m2⟩ := packages_prefix t1 k1'
      obtain ⟨c, rfl, rfl⟩ := groups_prefix (a := gs) (b := groups) (fun g hgg e he => t6 e (List.mem_flatten.2 ⟨g, hgg, he⟩))
        (fun g hgg e he => hsm e (List.mem_flatten.2 ⟨g, hgg, he⟩)) m1
      have hidle : midway { key := key, count := UInt64.ofNat gs.length } (framesOf []) s.chunks false =
        idle { key := key, count := UInt64.ofNat gs.length } s.chunks false := rfl
      rw [hidle] at hs
      obtain ⟨k, bs', cut, p1, p2, p3, -⟩ := packages_cut m2
      rw [← List.map_take] at p1
      cases hc : c.take k with
      | nil =>
        rw [hc] at p1
        have : bs' = [] := p1
        subst this
        rw [List.nil_append] at p2
        rw [read_cut (by rw [p2]; exact p3)] at hs
        simp at hs
      | cons g c' =>
        have hgc : g ∈ c := List.mem_of_mem_take (by rw [hc]; simp)
        cases g with
        | nil => exact absurd rfl (k4 [] (by simp [hgc]))
        | cons e0 g =>
          rw [hc] at p1
          obtain ⟨pkg, rest', q1, rfl, q2⟩ := p1
          obtain ⟨q3, q4⟩ := package_complete q1
          have hse : Small e0 := hsm e0 (List.mem_flatten.2 ⟨e0 :: g, by simp [hgc], by simp⟩)
          have hpos : 0 < (Wire.frame e0).length := (sized_of_small hse).1
          rw [framesOf_cons] at q4
          obtain ⟨cs', r1, r2⟩ := read_next (A := A) (d := { key := key, count := UInt64.ofNat gs.length }) (closed := false) (checks := checks)
            (cs := s.chunks) (rest := rest' ++ cut) q3 (by simpa using q4) (Props.fromBytes_frame_append checks hse _)
            (fun h => by have := congrArg List.length h; rw [List.length_append] at this; omega) (by rw [p2, List.append_assoc])
          rw [r2] at hs
          cases hs
          refine ⟨ih.run, ih.log, ih.fresh, gs ++ [e :: g], g, bs ++ pkg, ?_, ?_, ?_, ?_, t5, ?_⟩
          · rw [List.map_append]
            exact packages_snoc t1 (by simpa using q1)
          · simp only [List.append_nil] at t2
            simp [← t2]
          · simp only [midway, CryptWire.ofNat_succ, List.length_append, List.length_cons, List.length_nil, Nat.zero_add]
          · simp only [midway]
            rw [List.append_assoc, r1, ← t4, p2]; simp
          · intro e' he'
            simp only [List.flatten_append, List.mem_append] at he'
            rcases he' with he' | he'
            · exact t6 e' he'
            · exact hsm e' (by simp only [List.flatten_append, List.mem_append]; exact .inr (List.mem_flatten.2 ⟨e :: g, hgc, by simpa using he'⟩))

theorem drops_losesAtMost (A : Aead) (key : Bytes) (log : List Encryption) (checks : Bool) :
    (cryptDrops A key log checks).LosesAtMost fun e => Fits e ∧ frameSize e + 1024 + 16 < 2 ^ 32 := by
  intro s em rd h hg
  have hi := drop_inv A key log checks h hg
  obtain ⟨gs, left, bs, t1, t2, t3, t4, t5, t6⟩ := hi.taken
  obtain ⟨ops, hr, hfine⟩ := hi.run
  obtain ⟨groups, pend, rest, k1, k2, k3, k4, k5⟩ := C45_wire_intact A key ops s.w hr hfine
    (fun t e he => hg e (by rw [← hi.log]; exact List.mem_map.2 ⟨_, he, rfl⟩))
  rw [hi.log] at k5
  have hsm : ∀ e ∈ groups.flatten, Small e := fun e he => FitsBuffered.small (hg e (k5.subset (List.mem_append_left _ he)))
  have hwire : s.w.wire ++ rest = bs ++ (flat s.chunks ++ (s.w.wire.drop s.sent ++ rest)) := by
    rw [← List.append_assoc bs, t4, ← List.append_assoc, List.take_append_drop]
  have k1' : Packages A key 0 (groups.map framesOf) (bs ++ (flat s.chunks ++ (s.w.wire.drop s.sent ++ rest))) := by
    rw [← hwire]; exact k1
  obtain ⟨more, m1, m2⟩ := packages_prefix t1 k1'
  obtain ⟨c, rfl, rfl⟩ := groups_prefix (a := gs) (b := groups) (fun g hgg e he => t6 e (List.mem_flatten.2 ⟨g, hgg, he⟩))
    (fun g hgg e he => hsm e (List.mem_flatten.2 ⟨g, hgg, he⟩)) m1
  refine List.Sublist.trans ?_ k5
  rw [List.flatten_append, ← t2]
  simp only [List.append_assoc]
  exact List.sublist_append_left _ _

end Bromine.Link

namespace Bromine.Stack
open Bromine.Endpoint

variable {CA CB : Type} {ca : Config CA} {cb : Config CB} {linked : Nat → Bool} {LR LL : Nat → Link}

/-- Every state of the stack over links that lose events at most is, for the endpoints, a state of Model/Lossy.lean. -/
theorem refines_lossy {carR carL : Nat → Event → Prop} (hR : ∀ c, linked c = true → (LR c).LosesAtMost (carR c))
    (hL : ∀ c, linked c = true → (LL c).LosesAtMost (carL c)) {s : St CA CB LR LL} (h : Reachable ca cb linked LR LL s) :
    Carriable linked carR carL s → Lossy.Reachable ca cb linked s.sys := by
  have main : ∀ s : St CA CB LR LL, Reachable ca cb linked LR LL s → Carriable linked carR carL s →
      Lossy.Carries linked s.sys.a s.sys.b ∧ Lossy.Carries linked s.sys.b s.sys.a := by
    intro s hre hc
    have hi := inv hre
    refine ⟨fun c hl => hL c hl _ _ _ (hi.left c hl) ?_, fun c hl => hR c hl _ _ _ (hi.right c hl) ?_⟩
    · intro e he
      obtain ⟨x, hx, rfl⟩ := List.mem_map.1 he
      exact (hc c hl).2 x hx
    · intro e he
      obtain ⟨x, hx, rfl⟩ := List.mem_map.1 he
      exact (hc c hl).1 x hx
  suffices Reachable ca cb linked LR LL s ∧ (Carriable linked carR carL s → Lossy.Reachable ca cb linked s.sys) from this.2
  refine reachable_induction (P := fun s => Reachable ca cb linked LR LL s ∧ (Carriable linked carR carL s → Lossy.Reachable ca cb linked s.sys))
    ⟨⟨[], rfl⟩, fun _ => .init⟩ ?_ h
  intro s op s' hre ih hs
  have hre' : Reachable ca cb linked LR LL s' := by
    obtain ⟨ops, ho⟩ := hre
    refine ⟨ops ++ [op], ?_⟩
    generalize init LR LL = x at ho
    clear ih
    induction ops generalizing x with
    | nil => simp only [run, Option.some.injEq] at ho; subst ho; simp [run, hs]
    | cons o' ops0 ih' =>
      simp only [run, Option.bind_eq_some_iff, List.cons_append] at ho ⊢
      obtain ⟨z, hz, hz'⟩ := ho
      exact ⟨z, hz, ih' z hz'⟩
  refine ⟨hre', fun hcar => ?_⟩
  have ih := ih.2 (carriable_back hs hcar)
  obtain ⟨c1, c2⟩ := main s' hre' hcar
  obtain ⟨⟨a', b'⟩, r', l'⟩ := s'
  dsimp only at c1 c2 ⊢
  rcases sys_cases hs with ⟨o, -, h1, h2⟩ | ⟨o, -, h1, h2⟩ | h1 | ⟨d, e, l, hd, hr, h1, h2⟩ | ⟨d, e, l, hd, hr, h1, h2⟩
  · cases h2; exact .left ih h1 c1
  · cases h2; exact .right ih h1 c2
  · change _ = s.sys at h1; dsimp only at h1; rw [h1]; exact ih
  · cases h2; exact .right ih h1 c2
  · cases h2; exact .left ih h1 c1

end Bromine.Stack
