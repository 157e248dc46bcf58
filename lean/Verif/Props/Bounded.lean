import Verif.Lemmas.Bounded
/-
C97: connections that hold only so much.
-/
namespace Bromine.Props
open Endpoint Spec

section
variable {CA CB : Type} {ca : Config CA} {cb : Config CB} {linked : Nat → Bool} {roomR roomL : Nat → List Event → Event → Bool}

/-- **C97, refinement.** Waiting for room adds nothing to what two endpoints can get to see: all properties of two joined endpoints carry over. -/
theorem C97_refines {s : System.Sys CA CB} (h : Bounded.Reachable ca cb linked roomR roomL s) : System.Reachable ca cb linked s := Bounded.reachable_system h

/-- A step writes at most one event on a connection. -/
theorem writes_at {C : Type} {cfg : Config C} {s s' : State C} {op : Op} (h : Endpoint.step cfg s op = some s') (c : Nat) :
    s'.out c = s.out c ∨ (Bounded.target cfg s op = some c ∧ ∃ x, s'.out c = s.out c ++ [x]) := by
  have hs := stepR_of_step h
  cases hs with
  | sent r q hq hp =>
    by_cases hc : c = q.conn
    · right; subst hc; exact ⟨by simp [Bounded.target, hq], _, by simp; rfl⟩
    · left; simp [hc]
  | emit ctx c' ref ns name payload id hx =>
    by_cases hc : c = c'
    · right; subst hc; exact ⟨by simp [Bounded.target, hx], _, by simp; rfl⟩
    · left; simp [hc]
  | respond t k res id hk hp =>
    by_cases hc : c = k.conn
    · right; subst hc; exact ⟨by simp [Bounded.target, hk], _, by simp; rfl⟩
    · left; simp [hc]
  | _ => left; rfl

/-- **C97: who waits for room gets it, if the other side reads.** In every state of two endpoints joined by connections of limited capacity (that take any event when they are empty), with different ids:
whatever the first endpoint could write on a connection if there were no limit, it can write after nothing but the other endpoint's receive loops having gone on and its replies having been read; nothing
has to be written by anybody for that (unless the other side does not receive any more). -/
theorem C97_write_gets_through {s x : System.Sys CA CB} (h : Bounded.Reachable ca cb linked roomR roomL s) (hd : System.DistinctIds s) (hl : ∀ c, linked c = true)
    {c : Nat} (hempty : ∀ e, roomR c [] e = true) (hr : Receiving s.b c) {op : Op} (hx : System.step ca cb linked s (.left op) = some x)
    (hw : x.a.out c ≠ s.a.out c) :
    ∃ ops s' x', (∀ o ∈ ops, o = .toRight c ∨ ∃ o', o = .right o' ∧ Reads o') ∧ Bounded.run ca cb linked roomR roomL s ops = some s' ∧ s'.a = s.a ∧
      Bounded.step ca cb linked roomR roomL s' (.left op) = some x' ∧ x'.a = x.a := by
  have hsys := C97_refines h
  have hpre := System.fifo_right hsys c (hl c)
  have hle := hpre.length_le
  simp only [List.length_map] at hle
  obtain ⟨b1, h1, h2, h3, h4⟩ := Bounded.carry (ca := ca) (cb := cb) (roomR := roomR) (roomL := roomL) (hl c) ((s.a.out c).length - (s.b.arrived c).length) hsys (by omega)
  have hre1 : System.Reachable ca cb linked { s with b := b1 } := by
    obtain ⟨o, ho⟩ := hsys
    exact ⟨_, run_append ho (Bounded.run_system h1)⟩
  obtain ⟨b2, h5, h6⟩ := Bounded.drain (c := c) _ hre1 (by simp only [System.DistinctIds, h4]; exact hd) hl (by intro l; show b1.loop c ≠ _; rw [h3]; exact hr l) rfl
  have hk := h5.keeps (System.reachable_right hre1)
  obtain ⟨o5, h7, h8⟩ := h5
  have hrun2 := Bounded.lift (ca := ca) (linked := linked) (roomR := roomR) (roomL := roomL) (s := { s with b := b1 }) h7 h8
  obtain ⟨hloc, a', ha', rfl⟩ : System.isLocal linked op = true ∧ ∃ a', Endpoint.step ca s.a op = some a' ∧ x = { s with a := a' } := by
    simp only [System.step] at hx
    split at hx
    · rename_i hloc
      obtain ⟨a', h9, h10⟩ := Option.map_eq_some_iff.1 hx
      exact ⟨hloc, a', h9, h10.symm⟩
    · cases hx
  rcases writes_at ha' c with h9 | ⟨h9, y, h10⟩
  · exact absurd h9 hw
  refine ⟨_, { s with b := b2 }, { a := a', b := b2 }, ?_, (by rw [Bounded.run_append, h1]; exact hrun2), rfl, ?_, rfl⟩
  · intro o ho
    rcases List.mem_append.1 ho with ho | ho
    · exact .inl (List.eq_of_mem_replicate ho)
    · obtain ⟨o', h11, rfl⟩ := List.mem_map.1 ho
      exact .inr ⟨o', rfl, h7 o' h11⟩
  · have hp : Bounded.pending s.a b2 c = [] := by
      simp only [Bounded.pending, h6, List.map_eq_nil_iff, List.drop_eq_nil_iff]
      have : b2.arrived c = b1.arrived c := congrFun hk.2.1 c
      rw [this]
      simp only [List.length_nil]
      omega
    simp [Bounded.step, System.step, hloc, ha', Bounded.fits, h9, h10, hp, hempty]

/-- A receive loop that waits for a reader goes on waiting. -/
theorem waits_step {C : Type} {cfg : Config C} {s s' : State C} {op : Op} {c r : Nat} (hw : WaitsFor s c r)
    (hs : Endpoint.step cfg s op = some s') (hno : ¬ LetsGo c r op) : WaitsFor s' c r ∧ handledOn s' c = handledOn s c := by
  obtain ⟨e, q1, g1, g3, g4, g5⟩ := hw
  have hs := stepR_of_step hs
  have o1 : op ≠ .recv r := fun hh => hno (.inl hh)
  have o2 : op ≠ .timeout r := fun hh => hno (.inr (.inl hh))
  have o3 : op ≠ .drop r := fun hh => hno (.inr (.inr (.inl hh)))
  have o4 : op ≠ .abort c := fun hh => hno (.inr (.inr (.inr hh)))
  have g6 : q1.alive = true := by simp [Req.alive, g4]
  have key : s'.loop c = .sending r e ∧ handledOn s' c = handledOn s c ∧
      ∃ q, s'.reqs r = some q ∧ q.phase = .waiting ∧ q.buf.length = 8 := by
    cases hs with
    | chanClosed r0 q0 hq0 hp0 hb0 hl0 hcl ph hph =>
      refine ⟨g1, rfl, ?_⟩
      have hne : r ≠ r0 := by
        rintro rfl
        rw [g3] at hq0; cases hq0; simp [hb0] at g5
      exact ⟨q1, by simp [hne, g3], g4, g5⟩
    | _ =>
      first
      | exact ⟨g1, rfl, q1, g3, g4, g5⟩
      | (simp only [handledOn, List.filter_append, List.map_append, upd_apply]
         refine ⟨?_, ?_, ?_⟩ <;> grind)
  obtain ⟨k1, k2, q, k3, k4, k5⟩ := key
  exact ⟨⟨e, q, k1, k3, k4, k5⟩, k2⟩

/-- What is pending, while the receive loop holds an event. -/
theorem pending_eq {C D : Type} {cfg : Config D} {w : State C} {r : State D} (h : Reachable cfg r) {c x : Nat} (hw : WaitsFor r c x) :
    Bounded.pending w r c = ((w.out c).drop ((handledOn r c).length + 1)).map (·.event) := by
  obtain ⟨e, q, h1, -⟩ := hw
  have := congrArg List.length (arrInv h c)
  simp only [h1, held, List.length_append, List.length_cons, List.length_nil] at this
  simp only [Bounded.pending]
  rw [show (r.arrived c).length - (r.inbox c).length = (handledOn r c).length + 1 by omega]

/-- **C97 is violated: two endpoints can wait for each other for ever.** If on both sides of a connection the receive loop waits for the reader of a reply stream with 8 unread replies, and there is no room in either
direction, then nothing is written on the connection and nothing received on it is dealt with, on either side, until one of the two readers reads, times out or is
dropped, or the connection is stopped - whatever else happens. So if both readers first have something to write on the connection, they wait for ever. -/
theorem C97_stuck {c ra rb : Nat} (hl : linked c = true) : ∀ {ops : List System.Op} {s s' : System.Sys CA CB}, Bounded.Reachable ca cb linked roomR roomL s →
    WaitsFor s.a c ra → WaitsFor s.b c rb →
    (∀ e, roomR c (Bounded.pending s.a s.b c) e = false) → (∀ e, roomL c (Bounded.pending s.b s.a c) e = false) →
    Bounded.run ca cb linked roomR roomL s ops = some s' →
    (∀ op ∈ ops, (∀ o, op = .left o → ¬ LetsGo c ra o) ∧ (∀ o, op = .right o → ¬ LetsGo c rb o)) →
    s'.a.out c = s.a.out c ∧ s'.b.out c = s.b.out c ∧ handledOn s'.a c = handledOn s.a c ∧ handledOn s'.b c = handledOn s.b c ∧
      WaitsFor s'.a c ra ∧ WaitsFor s'.b c rb
  | [], s, s', _, hwa, hwb, _, _, hrun, _ => by cases hrun; exact ⟨rfl, rfl, rfl, rfl, hwa, hwb⟩
  | op :: ops, s, s', h, hwa, hwb, hR, hL, hrun, hops => by
    simp only [Bounded.run, Option.bind_eq_some_iff] at hrun
    obtain ⟨m, hm, hrun⟩ := hrun
    have hsys := C97_refines h
    have hrem : Bounded.Reachable ca cb linked roomR roomL m := by
      obtain ⟨o, ho⟩ := h
      exact ⟨o ++ [op], by rw [Bounded.run_append, ho]; simp [Bounded.run, hm]⟩
    have hop := hops op List.mem_cons_self
    have hms := Bounded.step_system hm
    have key : WaitsFor m.a c ra ∧ WaitsFor m.b c rb ∧ handledOn m.a c = handledOn s.a c ∧ handledOn m.b c = handledOn s.b c ∧ m.a.out c = s.a.out c ∧ m.b.out c = s.b.out c := by
      cases op with
      | left o =>
        simp only [System.step] at hms
        split at hms
        · obtain ⟨a', h9, rfl⟩ := Option.map_eq_some_iff.1 hms
          obtain ⟨k1, k2⟩ := waits_step hwa h9 (hop.1 o rfl)
          refine ⟨k1, hwb, k2, rfl, ?_, rfl⟩
          rcases writes_at h9 c with h10 | ⟨h10, x, h11⟩
          · exact h10
          · simp [Bounded.step, Option.bind_eq_some_iff, Bounded.fits, h10, hl] at hm
            simp [h11, hR] at hm
        · cases hms
      | right o =>
        simp only [System.step] at hms
        split at hms
        · obtain ⟨b', h9, rfl⟩ := Option.map_eq_some_iff.1 hms
          obtain ⟨k1, k2⟩ := waits_step hwb h9 (hop.2 o rfl)
          refine ⟨hwa, k1, rfl, k2, rfl, ?_⟩
          rcases writes_at h9 c with h10 | ⟨h10, x, h11⟩
          · exact h10
          · simp [Bounded.step, Option.bind_eq_some_iff, Bounded.fits, h10, hl] at hm
            simp [h11, hL] at hm
        · cases hms
      | toRight c' =>
        simp only [System.step] at hms
        split at hms
        · split at hms
          · obtain ⟨b', h9, rfl⟩ := Option.map_eq_some_iff.1 hms
            obtain ⟨k1, k2⟩ := waits_step hwb h9 (by rintro (h | h | h | h) <;> cases h)
            rcases writes_at h9 c with h10 | ⟨h10, -⟩
            · exact ⟨hwa, k1, rfl, k2, rfl, h10⟩
            · cases h10
          · cases hms
        · cases hms
      | toLeft c' =>
        simp only [System.step] at hms
        split at hms
        · split at hms
          · obtain ⟨a', h9, rfl⟩ := Option.map_eq_some_iff.1 hms
            obtain ⟨k1, k2⟩ := waits_step hwa h9 (by rintro (h | h | h | h) <;> cases h)
            rcases writes_at h9 c with h10 | ⟨h10, -⟩
            · exact ⟨k1, hwb, k2, rfl, h10, rfl⟩
            · cases h10
          · cases hms
        · cases hms
    obtain ⟨k1, k2, k3, k4, k5, k6⟩ := key
    have hms' := C97_refines hrem
    have hR' : Bounded.pending m.a m.b c = Bounded.pending s.a s.b c := by
      rw [pending_eq (System.reachable_right hms') k2, pending_eq (System.reachable_right hsys) hwb, k4, k5]
    have hL' : Bounded.pending m.b m.a c = Bounded.pending s.b s.a c := by
      rw [pending_eq (System.reachable_left hms') k1, pending_eq (System.reachable_left hsys) hwa, k3, k6]
    obtain ⟨j1, j2, j3, j4, j5, j6⟩ := C97_stuck hl hrem k1 k2 (by rw [hR']; exact hR) (by rw [hL']; exact hL) hrun
      (fun o ho => hops o (List.mem_cons_of_mem _ ho))
    exact ⟨j1.trans k5, j2.trans k6, j3.trans k3, j4.trans k4, j5, j6⟩

end

section
variable {linked : Nat → Bool} {n : Nat} {CA CB : Type} {ca : Config CA} {cb : Config CB}

/-- A handler of the first endpoint fills the connection. -/
theorem fill_left {c t : Nat} {ref : Option UInt64} (hl : linked c = true) : ∀ (ids : List UInt64) (s : System.Sys CA CB), ctxOf ca s.a (.task t) = some (c, ref) →
    (s.b.arrived c).length - (s.b.inbox c).length ≤ (s.a.out c).length → (Bounded.pending s.a s.b c).length + ids.length ≤ n →
    ∃ a' ops, Bounded.run ca cb linked (holds n) (holds n) s ops = some { s with a := a' } ∧ a'.loop = s.a.loop ∧ a'.reqs = s.a.reqs ∧ a'.arrived = s.a.arrived ∧
      a'.inbox = s.a.inbox ∧ a'.created = s.a.created ++ ids ∧ (Bounded.pending a' s.b c).length = (Bounded.pending s.a s.b c).length + ids.length
  | [], s, _, _, _ => ⟨s.a, [], rfl, rfl, rfl, rfl, rfl, by simp, by simp⟩
  | id :: ids, s, hc, hp, hn => by
    let a1 : State CA := { s.a with out := upd s.a.out c (s.a.out c ++ [{ origin := .task t, event := ctxEvent ref none "a" [] id }]), created := s.a.created ++ [id] }
    have h1 : Endpoint.step ca s.a (.emit (.task t) none "a" [] id) = some a1 := by simp [Endpoint.step, hc, a1, Ctx.origin]
    have hlt : (Bounded.pending s.a s.b c).length < n := by simp only [List.length_cons] at hn; omega
    have h2 : Bounded.step ca cb linked (holds n) (holds n) s (.left (.emit (.task t) none "a" [] id)) = some { s with a := a1 } := by
      have hg : (a1.out c).getLast? = some { origin := .task t, event := ctxEvent ref none "a" [] id } := by simp [a1]
      simp only [Bounded.step, System.step, System.isLocal, if_true, h1, Option.map_some, Option.bind_some, Bounded.fits, Bounded.target, hc, hl, hg, holds, hlt,
        decide_true, Bool.or_true]
    have hlen : (Bounded.pending a1 s.b c).length = (Bounded.pending s.a s.b c).length + 1 := by
      simp only [Bounded.pending, List.length_map, List.length_drop, a1, upd_apply, if_true, List.length_append, List.length_cons, List.length_nil]
      omega
    obtain ⟨a', ops, g1, g2, g3, g4, g5, g6, g7⟩ := fill_left hl ids { s with a := a1 } (by simpa [ctxOf, a1] using hc) (by simp [a1]; omega)
      (by show (Bounded.pending a1 s.b c).length + _ ≤ n; rw [hlen]; simp only [List.length_cons] at hn; omega)
    refine ⟨a', .left (.emit (.task t) none "a" [] id) :: ops, by simp only [Bounded.run, h2, Option.bind_some]; exact g1, g2, g3, g4, g5, ?_, ?_⟩
    · rw [g6]; simp [a1]
    · rw [g7]; show (Bounded.pending a1 s.b c).length + _ = _; rw [hlen]; simp only [List.length_cons]; omega


/-- A handler of the second endpoint fills the connection. -/
theorem fill_right {c t : Nat} {ref : Option UInt64} (hl : linked c = true) : ∀ (ids : List UInt64) (s : System.Sys CA CB), ctxOf cb s.b (.task t) = some (c, ref) →
    (s.a.arrived c).length - (s.a.inbox c).length ≤ (s.b.out c).length → (Bounded.pending s.b s.a c).length + ids.length ≤ n →
    ∃ a' ops, Bounded.run ca cb linked (holds n) (holds n) s ops = some { s with b := a' } ∧ a'.loop = s.b.loop ∧ a'.reqs = s.b.reqs ∧ a'.arrived = s.b.arrived ∧
      a'.inbox = s.b.inbox ∧ a'.created = s.b.created ++ ids ∧ (Bounded.pending a' s.a c).length = (Bounded.pending s.b s.a c).length + ids.length
  | [], s, _, _, _ => ⟨s.b, [], rfl, rfl, rfl, rfl, rfl, by simp, by simp⟩
  | id :: ids, s, hc, hp, hn => by
    let a1 : State CB := { s.b with out := upd s.b.out c (s.b.out c ++ [{ origin := .task t, event := ctxEvent ref none "a" [] id }]), created := s.b.created ++ [id] }
    have h1 : Endpoint.step cb s.b (.emit (.task t) none "a" [] id) = some a1 := by simp [Endpoint.step, hc, a1, Ctx.origin]
    have hlt : (Bounded.pending s.b s.a c).length < n := by simp only [List.length_cons] at hn; omega
    have h2 : Bounded.step ca cb linked (holds n) (holds n) s (.right (.emit (.task t) none "a" [] id)) = some { s with b := a1 } := by
      have hg : (a1.out c).getLast? = some { origin := .task t, event := ctxEvent ref none "a" [] id } := by simp [a1]
      simp only [Bounded.step, System.step, System.isLocal, if_true, h1, Option.map_some, Option.bind_some, Bounded.fits, Bounded.target, hc, hl, hg, holds, hlt,
        decide_true, Bool.or_true]
    have hlen : (Bounded.pending a1 s.a c).length = (Bounded.pending s.b s.a c).length + 1 := by
      simp only [Bounded.pending, List.length_map, List.length_drop, a1, upd_apply, if_true, List.length_append, List.length_cons, List.length_nil]
      omega
    obtain ⟨a', ops, g1, g2, g3, g4, g5, g6, g7⟩ := fill_right hl ids { s with b := a1 } (by simpa [ctxOf, a1] using hc) (by simp [a1]; omega)
      (by show (Bounded.pending a1 s.a c).length + _ ≤ n; rw [hlen]; simp only [List.length_cons] at hn; omega)
    refine ⟨a', .right (.emit (.task t) none "a" [] id) :: ops, by simp only [Bounded.run, h2, Option.bind_some]; exact g1, g2, g3, g4, g5, ?_, ?_⟩
    · rw [g6]; simp [a1]
    · rw [g7]; show (Bounded.pending a1 s.a c).length + _ = _; rw [hlen]; simp only [List.length_cons]; omega

end

/-- One event from the second to the first, and one from the first to the second, which the receive loops take, and deliver if `d`. -/
def exchangeOne (i : UInt64) (d : Bool) : List System.Op :=
  [.right (.emit (.task 0) none "a" [] (11 + 2 * i)), .toLeft 0, .left (.take 0 9)] ++ (if d then [.left (.deliver 0 9)] else []) ++
  [.left (.emit (.task 0) none "a" [] (10 + 2 * i)), .toRight 0, .right (.take 0 9)] ++ (if d then [.right (.deliver 0 9)] else [])

/-- Both sides ask the other one for a stream of replies; their handlers reply nine times, and nothing is read. -/
def bothStream : List System.Op :=
  [.left (.request 0 (.conn 0) .stream none "ping" [] 1), .left (.sent 0), .toRight 0, .right (.take 0 0),
   .right (.request 0 (.conn 0) .stream none "ping" [] 2), .right (.sent 0), .toLeft 0, .left (.take 0 0)] ++
  exchangeOne 0 true ++ exchangeOne 1 true ++ exchangeOne 2 true ++ exchangeOne 3 true ++ exchangeOne 4 true ++ exchangeOne 5 true ++ exchangeOne 6 true ++
  exchangeOne 7 true ++ exchangeOne 8 false

/-- **C97 is violated, for every capacity.** However much the connections hold (as long as they hold something), two endpoints with different ids that ask each other for a stream of replies can get into the state of `C97_stuck`:
all that is needed is that their handlers reply faster than the readers of the streams read. -/
theorem C97_violated (n : Nat) (h0 : 0 < n) (h32 : n < 2 ^ 32) : ∃ s : System.Sys Nat Nat, Bounded.Reachable demo demo (fun _ => true) (holds n) (holds n) s ∧ System.DistinctIds s ∧
    WaitsFor s.a 0 0 ∧ WaitsFor s.b 0 0 ∧ (∀ e, holds n 0 (Bounded.pending s.a s.b 0) e = false) ∧ (∀ e, holds n 0 (Bounded.pending s.b s.a 0) e = false) := by
  have base : ∃ s : System.Sys Nat Nat, Bounded.run demo demo (fun _ => true) (holds 1) (holds 1) {} bothStream = some s ∧
      s.a.loop 0 = .sending 0 (Event.new 27 none "a" [] (some 1) .response) ∧ s.b.loop 0 = .sending 0 (Event.new 26 none "a" [] (some 2) .response) ∧
      (s.a.reqs 0).map (fun q => (q.phase, q.buf.length)) = some (.waiting, 8) ∧ (s.b.reqs 0).map (fun q => (q.phase, q.buf.length)) = some (.waiting, 8) ∧
      ctxOf demo s.a (.task 0) = some (0, some 2) ∧ ctxOf demo s.b (.task 0) = some (0, some 1) ∧
      Bounded.pending s.a s.b 0 = [] ∧ Bounded.pending s.b s.a 0 = [] ∧
      (s.a.arrived 0).length - (s.a.inbox 0).length ≤ (s.b.out 0).length ∧ (s.b.arrived 0).length - (s.b.inbox 0).length ≤ (s.a.out 0).length ∧
      s.a.created = [1, 10, 12, 14, 16, 18, 20, 22, 24, 26] ∧ s.b.created = [2, 11, 13, 15, 17, 19, 21, 23, 25, 27] := by
    refine ⟨_, rfl, ?_⟩
    decide +kernel
  obtain ⟨s, hrun, l1, l2, r1, r2, c1, c2, p1, p2, q1, q2, i1, i2⟩ := base
  have hmono : ∀ c l e, holds 1 c l e = true → holds n c l e = true := by intro c l e h; simp only [holds, decide_eq_true_eq] at h ⊢; omega
  have hrun := Bounded.run_mono hmono hmono hrun
  let idsA : List UInt64 := (List.range n).map fun i => UInt64.ofNat (100 + 2 * i)
  let idsB : List UInt64 := (List.range n).map fun i => UInt64.ofNat (101 + 2 * i)
  obtain ⟨a', oA, gA, gl, gr, ga, gi, gc, gp⟩ := fill_left (n := n) (ca := demo) (cb := demo) (linked := fun _ => true) (c := 0) rfl idsA s c1 q2 (by simp [p1, idsA])
  obtain ⟨b', oB, kB, kl, kr, ka, ki, kc, kp⟩ := fill_right (n := n) (ca := demo) (cb := demo) (linked := fun _ => true) (c := 0) rfl idsB { s with a := a' } c2
    (by show (a'.arrived 0).length - (a'.inbox 0).length ≤ _; rw [ga, gi]; exact q1)
    (by
      have : Bounded.pending s.b a' 0 = [] := by simp only [Bounded.pending, ga, gi]; exact p2
      show (Bounded.pending s.b a' 0).length + _ ≤ n
      simp [this, idsB])
  have hpB : (Bounded.pending b' a' 0).length = n := by
    have h1 : (Bounded.pending b' a' 0).length = (Bounded.pending s.b a' 0).length + idsB.length := kp
    have h2 : Bounded.pending s.b a' 0 = [] := by simp only [Bounded.pending, ga, gi]; exact p2
    rw [h1, h2]; simp [idsB]
  have hpA : (Bounded.pending a' b' 0).length = n := by
    have : Bounded.pending a' b' 0 = Bounded.pending a' s.b 0 := by simp only [Bounded.pending, ka, ki]
    rw [this, gp, p1]; simp [idsA]
  refine ⟨{ a := a', b := b' }, ⟨bothStream ++ (oA ++ oB), ?_⟩, ?_, ?_, ?_, ?_, ?_⟩
  · rw [Bounded.run_append, hrun, Option.bind_some, Bounded.run_append, gA]; exact kB
  · show (a'.created ++ b'.created).Nodup
    rw [gc, kc, i1]
    show ([1, 10, 12, 14, 16, 18, 20, 22, 24, 26] ++ idsA ++ (s.b.created ++ idsB)).Nodup
    rw [i2]
    have hA : ∀ x ∈ idsA, ∃ i, i < n ∧ x.toNat = 100 + 2 * i := by
      intro x hx
      obtain ⟨i, hi, rfl⟩ := List.mem_map.1 hx
      have := List.mem_range.1 hi
      exact ⟨i, this, by rw [UInt64.toNat_ofNat']; omega⟩
    have hB : ∀ x ∈ idsB, ∃ i, i < n ∧ x.toNat = 101 + 2 * i := by
      intro x hx
      obtain ⟨i, hi, rfl⟩ := List.mem_map.1 hx
      have := List.mem_range.1 hi
      exact ⟨i, this, by rw [UInt64.toNat_ofNat']; omega⟩
    have small : ∀ x ∈ ([1, 10, 12, 14, 16, 18, 20, 22, 24, 26] ++ [2, 11, 13, 15, 17, 19, 21, 23, 25, 27] : List UInt64), x.toNat < 100 := by decide
    have nA : idsA.Nodup := by
      refine List.Pairwise.map _ (R := fun a b => a ≠ b ∧ a < n ∧ b < n) ?_ ?_
      · rintro a b ⟨hab, ha, hb⟩ heq
        have := congrArg UInt64.toNat heq
        simp only [UInt64.toNat_ofNat'] at this
        omega
      · exact List.Pairwise.imp_of_mem (fun ha hb h => ⟨h, List.mem_range.1 ha, List.mem_range.1 hb⟩) List.nodup_range
    have nB : idsB.Nodup := by
      refine List.Pairwise.map _ (R := fun a b => a ≠ b ∧ a < n ∧ b < n) ?_ ?_
      · rintro a b ⟨hab, ha, hb⟩ heq
        have := congrArg UInt64.toNat heq
        simp only [UInt64.toNat_ofNat'] at this
        omega
      · exact List.Pairwise.imp_of_mem (fun ha hb h => ⟨h, List.mem_range.1 ha, List.mem_range.1 hb⟩) List.nodup_range
    have hs : ([1, 10, 12, 14, 16, 18, 20, 22, 24, 26] ++ [2, 11, 13, 15, 17, 19, 21, 23, 25, 27] : List UInt64).Nodup := by decide
    obtain ⟨s1, s2, s3⟩ := List.nodup_append.1 hs
    refine List.nodup_append.2 ⟨List.nodup_append.2 ⟨s1, nA, ?_⟩, List.nodup_append.2 ⟨s2, nB, ?_⟩, ?_⟩
    · intro x hx y hy hxy
      obtain ⟨i, _, hi⟩ := hA y hy
      have := small x (List.mem_append_left _ hx)
      rw [hxy, hi] at this; omega
    · intro x hx y hy hxy
      obtain ⟨i, _, hi⟩ := hB y hy
      have := small x (List.mem_append_right _ hx)
      rw [hxy, hi] at this; omega
    · intro x hx y hy hxy
      rcases List.mem_append.1 hx with hx | hx <;> rcases List.mem_append.1 hy with hy | hy
      · exact s3 x hx y hy hxy
      · obtain ⟨i, _, hi⟩ := hB y hy
        have := small x (List.mem_append_left _ hx)
        rw [hxy, hi] at this; omega
      · obtain ⟨i, _, hi⟩ := hA x hx
        have := small y (List.mem_append_right _ hy)
        rw [← hxy, hi] at this; omega
      · obtain ⟨i, _, hi⟩ := hA x hx
        obtain ⟨j, _, hj⟩ := hB y hy
        rw [hxy] at hi; omega
  · obtain ⟨q, hq, hq'⟩ := Option.map_eq_some_iff.1 r1
    simp only [Prod.mk.injEq] at hq'
    exact ⟨_, q, by show a'.loop 0 = _; rw [gl]; exact l1, by show a'.reqs 0 = _; rw [gr]; exact hq, hq'.1, hq'.2⟩
  · obtain ⟨q, hq, hq'⟩ := Option.map_eq_some_iff.1 r2
    simp only [Prod.mk.injEq] at hq'
    exact ⟨_, q, by show b'.loop 0 = _; rw [kl]; exact l2, by show b'.reqs 0 = _; rw [kr]; exact hq, hq'.1, hq'.2⟩
  · intro e; show decide ((Bounded.pending a' b' 0).length < n) = false; rw [hpA]; simp
  · intro e; show decide ((Bounded.pending b' a' 0).length < n) = false; rw [hpB]; simp

/-- `C97_write_gets_through` applies to that state: the first endpoint waits for room, and can get it if the second reads. -/
example : ∃ s x : System.Sys Nat Nat, Bounded.Reachable demo demo (fun _ => true) (holds 3) (holds 3) s ∧ System.DistinctIds s ∧ Receiving s.b 0 ∧
    System.step demo demo (fun _ => true) s (.left (.emit (.conn 0) none "ping" [] 5)) = some x ∧ x.a.out 0 ≠ s.a.out 0 ∧
    Bounded.step demo demo (fun _ => true) (holds 3) (holds 3) s (.left (.emit (.conn 0) none "ping" [] 5)) = none := by
  obtain ⟨s, h1, h2, h3, ⟨e, q, h4, -⟩, h5, -⟩ := C97_violated 3 (by decide) (by decide)
  refine ⟨s, _, h1, h2, (by intro l h; rw [h4] at h; cases h), rfl, by simp, ?_⟩
  simp [Bounded.step, System.step, System.isLocal, Endpoint.step, ctxOf, Bounded.fits, Bounded.target, h5]

end Bromine.Props
