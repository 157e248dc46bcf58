import Verif.Props.Bounded
import Verif.Props.Progress
/-
C97: `await_reply` and `stream_replies` can complete also over connections of limited capacity.
-/
namespace Bromine.Props
open Endpoint Spec

section
variable {CA CB : Type} {ca : Config CA} {cb : Config CB} {linked : Nat → Bool} {roomR roomL : Nat → List Event → Event → Bool}

/-- A forward run with limited capacity. -/
def BFwd (ca : Config CA) (cb : Config CB) (linked : Nat → Bool) (roomR roomL : Nat → List Event → Event → Bool) (s s' : System.Sys CA CB) : Prop :=
  ∃ ops, (∀ op ∈ ops, SysForward op) ∧ Bounded.run ca cb linked roomR roomL s ops = some s'

theorem BFwd.refl (s : System.Sys CA CB) : BFwd ca cb linked roomR roomL s s := ⟨[], by simp, rfl⟩

theorem BFwd.trans {x y z : System.Sys CA CB} (h : BFwd ca cb linked roomR roomL x y) (h' : BFwd ca cb linked roomR roomL y z) :
    BFwd ca cb linked roomR roomL x z := by
  obtain ⟨o, h1, h2⟩ := h
  obtain ⟨o', h3, h4⟩ := h'
  refine ⟨o ++ o', ?_, by rw [Bounded.run_append, h2]; exact h4⟩
  intro op hop
  rcases List.mem_append.1 hop with h | h
  · exact h1 op h
  · exact h3 op h

theorem BFwd.one {s s' : System.Sys CA CB} {op : System.Op} (hf : SysForward op) (h : Bounded.step ca cb linked roomR roomL s op = some s') :
    BFwd ca cb linked roomR roomL s s' :=
  ⟨[op], by simpa using hf, by simp [Bounded.run, h]⟩

theorem BFwd.reachable {s s' : System.Sys CA CB} (h : BFwd ca cb linked roomR roomL s s') (hre : System.Reachable ca cb linked s) :
    System.Reachable ca cb linked s' := by
  obtain ⟨o, _, h2⟩ := h
  obtain ⟨o0, h0⟩ := hre
  exact ⟨_, run_append h0 (Bounded.run_system h2)⟩

theorem bounded_step_swap {s s' : System.Sys CA CB} {op : System.Op} (h : Bounded.step ca cb linked roomR roomL s op = some s') :
    Bounded.step cb ca linked roomL roomR s.swap op.swap = some s'.swap := by
  simp only [Bounded.step, Option.bind_eq_some_iff] at h ⊢
  obtain ⟨m, h1, h2⟩ := h
  refine ⟨m.swap, by rw [System.step_swap, h1]; rfl, ?_⟩
  cases op with
  | left o =>
    simp only at h2
    split at h2
    · rename_i hf; cases h2; simp only [System.Op.swap]; exact if_pos hf
    · cases h2
  | right o =>
    simp only at h2
    split at h2
    · rename_i hf; cases h2; simp only [System.Op.swap]; exact if_pos hf
    · cases h2
  | toLeft c => cases h2; rfl
  | toRight c => cases h2; rfl

theorem BFwd.swap {s s' : System.Sys CA CB} (h : BFwd ca cb linked roomR roomL s s') : BFwd cb ca linked roomL roomR s.swap s'.swap := by
  obtain ⟨ops, h1, h2⟩ := h
  refine ⟨ops.map System.Op.swap, ?_, ?_⟩
  · intro op hop
    obtain ⟨o, ho, rfl⟩ := List.mem_map.1 hop
    have := h1 o ho
    cases o <;> exact this
  · clear h1
    induction ops generalizing s with
    | nil => cases h2; rfl
    | cons o ops ih =>
      simp only [Bounded.run, Option.bind_eq_some_iff, List.map_cons] at h2 ⊢
      obtain ⟨y, h1, h2⟩ := h2
      exact ⟨y.swap, bounded_step_swap h1, ih h2⟩

theorem rfwd_fwd {s s' : State CB} (h : Bounded.RFwd cb s s') : Fwd cb s s' := by
  obtain ⟨o, h1, h2⟩ := h
  exact ⟨o, fun op ho => by have := h1 op ho; cases op <;> first | exact this.elim | trivial, h2⟩

theorem BFwd.right (s : System.Sys CA CB) {b' : State CB} (h : Bounded.RFwd cb s.b b') : BFwd ca cb linked roomR roomL s { a := s.a, b := b' } := by
  obtain ⟨o, h1, h2⟩ := h
  refine ⟨o.map .right, ?_, Bounded.lift h1 h2⟩
  intro op hop
  obtain ⟨x, hx, rfl⟩ := List.mem_map.1 hop
  have := h1 x hx
  cases x <;> first | exact this.elim | trivial

theorem BFwd.left (s : System.Sys CA CB) {a' : State CA} (h : Bounded.RFwd ca s.a a') : BFwd ca cb linked roomR roomL s { a := a', b := s.b } :=
  (BFwd.right (ca := cb) (cb := ca) (linked := linked) (roomR := roomL) (roomL := roomR) s.swap h).swap

/-- Steps that write nothing need no room. -/
theorem BFwd.right_quiet (s : System.Sys CA CB) {op : Op} (hf : Forward op) {b' : State CB} (h : Endpoint.step cb s.b op = some b')
    (ht : Bounded.target cb s.b op = none) : BFwd ca cb linked roomR roomL s { a := s.a, b := b' } :=
  BFwd.one (op := .right op) hf (by simp [Bounded.step, System.step, forward_local hf, h, Bounded.fits, ht])

/-- What is written when nothing is under way gets through. -/
theorem BFwd.write_left (s : System.Sys CA CB) {op : Op} (hf : Forward op) {a' : State CA} (h : Endpoint.step ca s.a op = some a') {c : Nat}
    (ht : Bounded.target ca s.a op = some c) (hempty : ∀ e, roomR c [] e = true) (hp : Bounded.pending s.a s.b c = []) :
    BFwd ca cb linked roomR roomL s { a := a', b := s.b } := by
  refine BFwd.one (op := .left op) hf ?_
  have hfit : Bounded.fits ca linked roomR s.a a' s.b op = true := by
    simp only [Bounded.fits, ht, hp]
    cases (a'.out c).getLast? <;> simp [hempty]
  simp [Bounded.step, System.step, forward_local hf, h, hfit]

theorem BFwd.write_right (s : System.Sys CA CB) {op : Op} (hf : Forward op) {b' : State CB} (h : Endpoint.step cb s.b op = some b') {c : Nat}
    (ht : Bounded.target cb s.b op = some c) (hempty : ∀ e, roomL c [] e = true) (hp : Bounded.pending s.b s.a c = []) :
    BFwd ca cb linked roomR roomL s { a := s.a, b := b' } :=
  (BFwd.write_left (ca := cb) (cb := ca) (linked := linked) (roomR := roomL) (roomL := roomR) s.swap hf h ht hempty hp).swap

/-- Everything written arrives, and nothing else changes. -/
theorem bounded_arrive {c : Nat} (hl : linked c = true) (n : Nat) : ∀ (s : System.Sys CA CB), System.Reachable ca cb linked s →
    (s.a.out c).length - (s.b.arrived c).length = n →
    ∃ s', BFwd ca cb linked roomR roomL s s' ∧ s'.a = s.a ∧ s'.b.arrived c = (s.a.out c).map (·.event) ∧ s'.b.loop = s.b.loop ∧ s'.b.reqs = s.b.reqs ∧
      s'.b.tasks = s.b.tasks ∧ s'.b.created = s.b.created ∧ s'.b.out = s.b.out := by
  induction n with
  | zero =>
    intro s hre hn
    have hp := System.fifo_right hre c hl
    have hlen := hp.length_le
    simp only [List.length_map] at hlen
    exact ⟨s, .refl s, rfl, hp.eq_of_length (by simp; omega), rfl, rfl, rfl, rfl, rfl⟩
  | succ n ih =>
    intro s hre hn
    have hlt : (s.b.arrived c).length < (s.a.out c).length := by omega
    obtain ⟨s1, hs1, ha, hb, h1, h2, h3, h4, h5⟩ : ∃ s1, System.step ca cb linked s (.toRight c) = some s1 ∧ s1.a = s.a ∧
        (s1.b.arrived c).length = (s.b.arrived c).length + 1 ∧ s1.b.loop = s.b.loop ∧ s1.b.reqs = s.b.reqs ∧ s1.b.tasks = s.b.tasks ∧
        s1.b.created = s.b.created ∧ s1.b.out = s.b.out := by
      simp only [System.step, hl, if_true, List.getElem?_eq_getElem hlt, Endpoint.step, Option.map_some]
      exact ⟨_, rfl, rfl, by simp, rfl, rfl, rfl, rfl, rfl⟩
    have hf : BFwd ca cb linked roomR roomL s s1 := .one (op := .toRight c) trivial (by simp [Bounded.step, hs1])
    obtain ⟨s', g0, g1, g2, g3, g4, g5, g6, g7⟩ := ih s1 (hf.reachable hre) (by rw [ha, hb]; omega)
    exact ⟨s', hf.trans g0, g1.trans ha, by rw [g2, ha], g3.trans h1, g4.trans h2, g5.trans h3, g6.trans h4, g7.trans h5⟩

/-- The second side deals with everything that has been written, without anything being written. -/
theorem bounded_drain {c : Nat} {s : System.Sys CA CB} (h : System.Reachable ca cb linked s) (hd : System.DistinctIds s) (hl : ∀ c, linked c = true)
    (hr : Receiving s.b c) :
    ∃ b1 b2, BFwd ca cb linked roomR roomL s { a := s.a, b := b2 } ∧ System.Reachable ca cb linked { a := s.a, b := b1 } ∧ b1.loop = s.b.loop ∧
      b1.reqs = s.b.reqs ∧ b1.tasks = s.b.tasks ∧ b1.created = s.b.created ∧ b1.out = s.b.out ∧ Bounded.RFwd cb b1 b2 ∧
      handledOn b2 c = (s.a.out c).map (·.event) ∧ Bounded.pending s.a b2 c = [] := by
  obtain ⟨⟨a0, b1⟩, g0, g1, g2, g3, g4, g5, g6, g7⟩ := bounded_arrive (ca := ca) (cb := cb) (roomR := roomR) (roomL := roomL) (hl c) _ s h rfl
  simp only at g1 g2 g3 g4 g5 g6 g7
  subst g1
  have hre1 := g0.reachable h
  obtain ⟨b2, f1, k1⟩ := Bounded.drain (c := c) _ hre1 (by simpa [System.DistinctIds, g6] using hd) hl (by simpa [Receiving, g3] using hr) rfl
  have hre2 := Bounded.reach_b hre1 f1
  have hk := f1.keeps (System.reachable_right hre1)
  obtain ⟨b3, f2, k2, k3⟩ := Bounded.to_idle (s := { a := s.a, b := b2 }) hre2 (by simp only [System.DistinctIds]; rw [hk.1]; simpa [System.DistinctIds, g6] using hd) hl
    (f1.receiving (System.reachable_right hre1) (by simpa [Receiving, g3] using hr))
  have hk2 := f2.keeps (System.reachable_right hre2)
  have f := f1.trans f2
  have harr : b3.arrived c = (s.a.out c).map (·.event) := by
    rw [hk2.2.1]; show b2.arrived c = _; rw [hk.2.1]; exact g2
  have hin : b3.inbox c = [] := k3.trans k1
  refine ⟨b1, b3, g0.trans (BFwd.right { a := s.a, b := b1 } f), hre1, g3, g4, g5, g6, g7, f, ?_, ?_⟩
  · have h1 := arrInv (f.reachable (System.reachable_right hre1)) c
    rw [k2, hin, harr] at h1
    simpa [held] using h1.symm
  · simp [Bounded.pending, hin, harr]

variable {r : Nat} {q0 : Req}

theorem Way.bounded_drainRight {s : System.Sys CA CB} (h : Way ca cb linked r q0 s) (hl : ∀ c, linked c = true) :
    ∃ s', BFwd ca cb linked roomR roomL s s' ∧ Way ca cb linked r q0 s' ∧ s'.a = s.a ∧ handledOn s'.b q0.conn = (s.a.out q0.conn).map (·.event) ∧
      s'.b.created = s.b.created ∧ Bounded.pending s'.a s'.b q0.conn = [] := by
  obtain ⟨b1, b2, k0, k1, k2, k3, k4, k5, k6, f, k7, k8⟩ := bounded_drain (roomR := roomR) (roomL := roomL) h.reach h.ids hl h.recB
  have w1 : Way ca cb linked r q0 { a := s.a, b := b1 } :=
    ⟨k1, by simpa [System.DistinctIds, k5] using h.ids, h.recA, by simpa [Receiving, k2] using h.recB, h.req, by simpa [k4] using h.fine⟩
  exact ⟨_, k0, w1.right (rfwd_fwd f), rfl, k7, (f.keeps (System.reachable_right k1)).1.trans k5, k8⟩

theorem Way.bounded_drainLeft {s : System.Sys CA CB} (h : Way ca cb linked r q0 s) (hl : ∀ c, linked c = true) :
    ∃ s', BFwd ca cb linked roomR roomL s s' ∧ Way ca cb linked r q0 s' ∧ s'.b = s.b ∧ handledOn s'.a q0.conn = (s.b.out q0.conn).map (·.event) ∧
      s'.a.created = s.a.created ∧ Bounded.pending s'.b s'.a q0.conn = [] := by
  obtain ⟨a1, a2, k0, k1, k2, k3, k4, k5, k6, f, k7, k8⟩ :=
    bounded_drain (roomR := roomL) (roomL := roomR) (System.reachable_swap h.reach) h.ids.swap hl (s := s.swap) h.recA
  have k1' : System.Reachable ca cb linked { a := a1, b := s.b } := System.reachable_swap k1
  have w1 : Way ca cb linked r q0 { a := a1, b := s.b } :=
    ⟨k1', by simp only [System.DistinctIds, k5]; exact h.ids, by intro l; show a1.loop _ ≠ _; rw [k2]; exact h.recA l, h.recB,
      by show ∃ q, a1.reqs r = some q ∧ _; rw [k3]; exact h.req, h.fine⟩
  exact ⟨_, k0.swap, w1.left (rfwd_fwd f), rfl, k7, (f.keeps (System.reachable_left k1')).1.trans k5, k8⟩

/-- Last stage: the channel of the request holds its answer. -/
theorem Way.bounded_receive {s : System.Sys CA CB} (n : Nat) (h : Way ca cb linked r q0 s) (hl : ∀ c, linked c = true) (hR : ∀ e, roomR q0.conn [] e = true)
    {q : Req} (hq : s.a.reqs r = some q) (hn : q.buf.length = n)
    (ha : ∃ e ∈ q.popped ++ q.buf, e.eventType = .end ∨ e.eventType = .error) :
    ∃ s', BFwd ca cb linked roomR roomL s s' ∧ Way ca cb linked r q0 s' ∧ Settled s' r q0 := by
  induction n generalizing s q with
  | zero =>
    obtain ⟨q', hq', ow⟩ := h.req
    rw [hq] at hq'; cases hq'
    have hbuf : q.buf = [] := List.length_eq_zero_iff.1 hn
    have hsh := (reqInv (System.reachable_left h.reach)).shape r q hq
    rcases ow.2.2.2 with hp | hp | ⟨e, hp⟩ | hp
    · simp only [Shape, hp] at hsh
      rw [hsh, hbuf] at ha; simp at ha
    · simp only [Shape, hp] at hsh
      obtain ⟨e, he, hty⟩ := ha
      rw [hbuf, List.append_nil] at he
      refine ⟨s, .refl s, h, q, hq, ow.2.2.1, .inr ⟨?_, e, he, ?_⟩⟩
      · cases hk : q.kind with
        | single => rw [hsh.1 hk] at he; simp at he
        | stream => rfl
      · rcases hty with hty | hty
        · exact absurd hty (hsh.2 e he)
        · exact hty
    · obtain ⟨s1, h1, h2⟩ : ∃ s1, Endpoint.step ca s.a (.finish r) = some s1 ∧ s1.reqs r = some { q with phase := .finished .replied } := by
        simp only [Endpoint.step, hq, hp]
        exact ⟨_, rfl, by simp [unlisten, setReq]⟩
      have f : Bounded.RFwd ca s.a s1 := .one (op := .finish r) trivial h1
      exact ⟨_, BFwd.left s f, h.left (rfwd_fwd f), _, h2, ow.2.2.1, .inl rfl⟩
    · exact ⟨s, .refl s, h, q, hq, ow.2.2.1, .inl hp⟩
  | succ n ih =>
    -- once the request is waiting
    have waits : ∀ (s : System.Sys CA CB) (q : Req), Way ca cb linked r q0 s → s.a.reqs r = some q → q.buf.length = n + 1 →
        (∃ e ∈ q.popped ++ q.buf, e.eventType = .end ∨ e.eventType = .error) → q.phase = .waiting →
        ∃ s', BFwd ca cb linked roomR roomL s s' ∧ Way ca cb linked r q0 s' ∧ Settled s' r q0 := by
      intro s q h hq hn ha hp
      cases hb : q.buf with
      | nil => rw [hb] at hn; simp at hn
      | cons e rest =>
        obtain ⟨s2, h3, h4⟩ : ∃ s2, Endpoint.step ca s.a (.recv r) = some s2 ∧
            s2.reqs r = some { q with buf := rest, popped := q.popped ++ [e], phase := if q.kind = .single ∨ e.eventType = .end then .closing (some e) else .waiting } := by
          simp only [Endpoint.step, hq, hp, if_true, hb]
          exact ⟨_, rfl, by simp [setReq]⟩
        have f2 : Bounded.RFwd ca s.a s2 := .one (op := .recv r) trivial h3
        obtain ⟨s', g1, g2, g3⟩ := ih (h.left (rfwd_fwd f2)) h4 (by rw [hb] at hn; simpa using hn) (by simpa [hb] using ha)
        exact ⟨s', (BFwd.left s f2).trans g1, g2, g3⟩
    obtain ⟨q', hq', ow⟩ := h.req
    rw [hq] at hq'; cases hq'
    rcases ow.2.2.2 with hp | hp | ⟨e, hp⟩ | hp
    · -- registered: send it first
      obtain ⟨s0, g0, w0, ga, -, -, gp⟩ := h.bounded_drainRight (roomR := roomR) (roomL := roomL) hl
      rw [← ga] at hq
      obtain ⟨s1, h1, h2⟩ : ∃ s1, Endpoint.step ca s0.a (.sent r) = some s1 ∧ s1.reqs r = some { q with phase := .waiting } := by
        simp only [Endpoint.step, hq, hp, if_true]
        exact ⟨_, rfl, by simp [setReq]⟩
      have f : Fwd ca s0.a s1 := .one (op := .sent r) trivial h1
      have fb : BFwd ca cb linked roomR roomL s0 { a := s1, b := s0.b } :=
        BFwd.write_left s0 (op := .sent r) trivial h1 (c := q0.conn) (by simp [Bounded.target, hq, ow.2.1]) hR gp
      obtain ⟨s', k1, k2, k3⟩ := waits _ _ (w0.left f) h2 hn ha rfl
      exact ⟨s', (g0.trans fb).trans k1, k2, k3⟩
    · exact waits s q h hq hn ha hp
    · obtain ⟨s1, h1, h2⟩ : ∃ s1, Endpoint.step ca s.a (.finish r) = some s1 ∧ s1.reqs r = some { q with phase := .finished .replied } := by
        simp only [Endpoint.step, hq, hp]
        exact ⟨_, rfl, by simp [unlisten, setReq]⟩
      have f : Bounded.RFwd ca s.a s1 := .one (op := .finish r) trivial h1
      exact ⟨_, BFwd.left s f, h.left (rfwd_fwd f), _, h2, ow.2.2.1, .inl rfl⟩
    · exact ⟨s, .refl s, h, q, hq, ow.2.2.1, .inl hp⟩

/-- The answer has been written by the second side. -/
theorem Way.bounded_answered {s : System.Sys CA CB} (h : Way ca cb linked r q0 s) (hl : ∀ c, linked c = true) (hR : ∀ e, roomR q0.conn [] e = true) {y : OutEntry}
    (hy : y ∈ s.b.out q0.conn) (href : y.event.referenceId = some q0.event.id) (hty : y.event.eventType = .end ∨ y.event.eventType = .error) :
    ∃ s', BFwd ca cb linked roomR roomL s s' ∧ Way ca cb linked r q0 s' ∧ Settled s' r q0 := by
  obtain ⟨s1, g1, w, g3, g4, -, -⟩ := h.bounded_drainLeft (roomR := roomR) (roomL := roomL) hl
  obtain ⟨q, hq, ow⟩ := w.req
  by_cases hp : q.phase = .finished .replied
  · exact ⟨s1, g1, w, q, hq, ow.2.2.1, .inl hp⟩
  have halive : q.alive = true := by
    rcases ow.2.2.2 with h | h | ⟨e, h⟩ | h
    · simp [Req.alive, h]
    · simp [Req.alive, h]
    · simp [Req.alive, h]
    · exact absurd h hp
  have hf := System.freshIds w.reach w.ids hl
  have hc := C22_complete (System.reachable_left w.reach) hf hq halive
  have hmem : y.event ∈ handledOn s1.a q0.conn := by rw [g4]; exact List.mem_map_of_mem hy
  simp only [handledOn, List.mem_map, List.mem_filter, decide_eq_true_eq] at hmem
  obtain ⟨x, ⟨hx, hxc⟩, hxe⟩ := hmem
  have hans : answers ca q x = true := by simp [answers, hxe, href, ow.1, hxc, ow.2.1]
  have hin : y.event ∈ q.popped ++ q.buf := by
    rw [hc]
    simp only [List.mem_map, List.mem_filter]
    refine ⟨x, ⟨?_, hans⟩, hxe⟩
    rw [← List.take_append_drop q.regAt s1.a.processed] at hx
    rcases List.mem_append.1 hx with hx | hx
    · have := no_early_reply w.reach w.ids r q hq (fun c _ => hl c) x hx
      rw [hans] at this; cases this
    · exact hx
  obtain ⟨s2, k1, k2, k3⟩ := w.bounded_receive _ hl hR hq rfl ⟨_, hin, hty⟩
  exact ⟨s2, g1.trans k1, k2, k3⟩

/-- A handler of the second side has the event. -/
theorem Way.bounded_handled {s : System.Sys CA CB} (h : Way ca cb linked r q0 s) (hl : ∀ c, linked c = true) (hR : ∀ e, roomR q0.conn [] e = true)
    (hL : ∀ e, roomL q0.conn [] e = true) {t : Nat} {k : Endpoint.Task CB}
    (hk : s.b.tasks t = some k) (hkc : k.conn = q0.conn) (hke : k.event = q0.event) {id : UInt64} (hid : id ∉ s.a.created ++ s.b.created) :
    ∃ s', BFwd ca cb linked roomR roomL s s' ∧ Way ca cb linked r q0 s' ∧ Settled s' r q0 := by
  -- the step that writes the answer
  have resp : ∀ (s : System.Sys CA CB) (k : Endpoint.Task CB) (res : Except Error Bytes), Way ca cb linked r q0 s → s.b.tasks t = some k → k.conn = q0.conn →
      k.event = q0.event → k.phase = .responding res → id ∉ s.a.created ++ s.b.created →
      ∃ s', BFwd ca cb linked roomR roomL s s' ∧ Way ca cb linked r q0 s' ∧ Settled s' r q0 := by
    intro s k res h hk hkc hke hp hid
    obtain ⟨s0, g0, w0, gb, -, gc, gp⟩ := h.bounded_drainLeft (roomR := roomR) (roomL := roomL) hl
    rw [← gc, ← gb] at hid
    rw [← gb] at hk
    clear h gb gc
    obtain ⟨b1, h1, h2, h3, h4, h5⟩ : ∃ b1, Endpoint.step cb s0.b (.respond t id) = some b1 ∧
        b1.tasks = upd s0.b.tasks t (some { k with phase := afterResponse res true }) ∧
        b1.out q0.conn = s0.b.out q0.conn ++ [{ origin := .final t, event := finalEvent cb k res id }] ∧ b1.created = s0.b.created ++ [id] ∧ b1.loop = s0.b.loop := by
      simp only [Endpoint.step, hk, hp]
      exact ⟨_, rfl, rfl, by simp [hkc], rfl, rfl⟩
    have f : BFwd ca cb linked roomR roomL s0 { a := s0.a, b := b1 } :=
      BFwd.write_right s0 (op := .respond t id) trivial h1 (c := q0.conn) (by simp [Bounded.target, hk, hkc]) hL gp
    have w : Way ca cb linked r q0 { a := s0.a, b := b1 } := by
      refine ⟨f.reachable w0.reach, ?_, w0.recA, ?_, w0.req, ?_⟩
      · have hd := w0.ids
        simp only [System.DistinctIds, h4] at hd ⊢
        rw [← List.append_assoc, List.nodup_append]
        refine ⟨hd, by simp, ?_⟩
        rintro a ha b hb rfl
        rw [List.mem_singleton.1 hb] at ha
        exact hid ha
      · have := w0.recB; simpa [Receiving, h5] using this
      · intro t' k' hk' hh
        rw [h2] at hk'
        rcases upd_some hk' with ⟨rfl, rfl⟩ | ⟨_, hk'⟩
        · cases res <;> simp [TaskFine, afterResponse]
        · exact w0.fine t' k' hk' hh
    have hia := finalEvent_isAnswer (cfg := cb) k res id
    obtain ⟨s2, k1, k2, k3⟩ := w.bounded_answered hl hR (roomL := roomL) (y := { origin := .final t, event := finalEvent cb k res id }) (by simp [h3])
      (by rw [finalEvent_ref, hke]) (isAnswer_type hia)
    exact ⟨s2, (g0.trans f).trans k1, k2, k3⟩
  have hrb := System.reachable_right h.reach
  rcases h.fine t k hk ⟨hkc, hke⟩ with hp | ⟨res, hp⟩ | hp
  · obtain ⟨res, hres⟩ := some_result (cfg := cb) k
    obtain ⟨b1, h1, h2, h3⟩ : ∃ b1, Endpoint.step cb s.b (.handlerDone t res) = some b1 ∧ b1.tasks t = some { k with phase := .responding res } ∧
        b1.created = s.b.created := by
      simp only [Endpoint.step, hk, hp, hres, if_true]
      exact ⟨_, rfl, by simp, rfl⟩
    have f : Fwd cb s.b b1 := .one (op := .handlerDone t res) trivial h1
    obtain ⟨s2, k1, k2, k3⟩ := resp { a := s.a, b := b1 } _ res (h.right f) h2 hkc hke rfl (by simpa [h3] using hid)
    exact ⟨s2, (BFwd.right_quiet s (op := .handlerDone t res) trivial h1 rfl).trans k1, k2, k3⟩
  · exact resp s k res h hk hkc hke hp hid
  · -- already written
    have hm : ∃ y ∈ s.b.out q0.conn, y.event.referenceId = some q0.event.id ∧ (y.event.eventType = .end ∨ y.event.eventType = .error) := by
      have hfi := finals hrb t q0.conn
      have : ∃ res id, emittedBy s.b q0.conn (.final t) = [finalEvent cb k res id] := by
        rcases hp with ⟨res, hp⟩ | ⟨res, hp⟩
        · simp only [Finals, hk, hp, hkc, and_self, if_true] at hfi
          obtain ⟨i, hi⟩ := hfi; exact ⟨res, i, hi⟩
        · simp only [Finals, hk, hp, hkc, and_self, if_true] at hfi
          obtain ⟨i, hi⟩ := hfi; exact ⟨res, i, hi⟩
      obtain ⟨res, i, hi⟩ := this
      have hmem : finalEvent cb k res i ∈ emittedBy s.b q0.conn (.final t) := by rw [hi]; simp
      simp only [emittedBy, List.mem_map, List.mem_filter] at hmem
      obtain ⟨y, ⟨hy, _⟩, hye⟩ := hmem
      exact ⟨y, hy, by rw [hye, finalEvent_ref, hke], by rw [hye]; exact isAnswer_type (finalEvent_isAnswer (cfg := cb) k res i)⟩
    obtain ⟨y, hy, h1, h2⟩ := hm
    exact h.bounded_answered hl hR hy h1 h2

theorem Way.bounded_completes {s : System.Sys CA CB} (h : Way ca cb linked r q0 s) (hl : ∀ c, linked c = true) (hR : ∀ e, roomR q0.conn [] e = true)
    (hL : ∀ e, roomL q0.conn [] e = true) (hnoref : q0.event.referenceId = none) {id : UInt64} (hid : id ∉ s.a.created ++ s.b.created) :
    ∃ s', BFwd ca cb linked roomR roomL s s' ∧ Way ca cb linked r q0 s' ∧ Settled s' r q0 := by
  -- the event is written
  have written : ∀ s : System.Sys CA CB, Way ca cb linked r q0 s → id ∉ s.a.created ++ s.b.created → (∃ x ∈ s.a.out q0.conn, x.event = q0.event) →
      ∃ s', BFwd ca cb linked roomR roomL s s' ∧ Way ca cb linked r q0 s' ∧ Settled s' r q0 := by
    rintro s h hid ⟨x, hx, hxe⟩
    obtain ⟨s1, g1, w, g3, g4, g5, -⟩ := h.bounded_drainRight (roomR := roomR) (roomL := roomL) hl
    have hid1 : id ∉ s1.a.created ++ s1.b.created := by rw [g3, g5]; exact hid
    have hmem : q0.event ∈ handledOn s1.b q0.conn := by rw [g4, ← hxe]; exact List.mem_map_of_mem hx
    simp only [handledOn, List.mem_map, List.mem_filter, decide_eq_true_eq] at hmem
    obtain ⟨z, ⟨hz, hzc⟩, hze⟩ := hmem
    obtain ⟨q, hq, ow⟩ := w.req
    rcases (C28_exactly_once (System.reachable_right w.reach)).1 z hz with ⟨r', q', _, _, hans⟩ | ⟨t, k, _, hk, hke, hkc⟩ | ⟨_, hty⟩
    · simp [answers, hze, hnoref] at hans
    · obtain ⟨s2, k1, k2, k3⟩ := w.bounded_handled hl hR hL hk (hkc.trans hzc) (hke.trans hze) hid1
      exact ⟨s2, g1.trans k1, k2, k3⟩
    · have ho := (outInv (System.reachable_left w.reach)).req r q hq
      rw [hze] at hty
      rcases hqo : q.origin with _ | t2 | t2
      · rw [hqo] at ho
        have := ho.1.2
        rw [ow.1, hty] at this
        cases this
      · rw [hqo] at ho
        obtain ⟨k2, _, _, _, g, _⟩ := ho.1
        rw [ow.1, hnoref] at g
        cases g
      · exact absurd hqo (ho.2 t2)
  obtain ⟨q, hq, ow⟩ := h.req
  rcases ow.2.2.2 with hp | hp | ⟨e, hp⟩ | hp
  · obtain ⟨s0, g0, w0, ga, -, gc, gp⟩ := h.bounded_drainRight (roomR := roomR) (roomL := roomL) hl
    rw [← ga] at hq
    rw [← gc, ← ga] at hid
    obtain ⟨a1, h1, h2, h3⟩ : ∃ a1, Endpoint.step ca s0.a (.sent r) = some a1 ∧ (∃ x ∈ a1.out q0.conn, x.event = q0.event) ∧ a1.created = s0.a.created := by
      simp only [Endpoint.step, hq, hp, if_true]
      exact ⟨_, rfl, ⟨{ origin := q.origin, event := q.event }, by simp [ow.2.1], ow.1⟩, rfl⟩
    have f : Fwd ca s0.a a1 := .one (op := .sent r) trivial h1
    have fb : BFwd ca cb linked roomR roomL s0 { a := a1, b := s0.b } :=
      BFwd.write_left s0 (op := .sent r) trivial h1 (c := q0.conn) (by simp [Bounded.target, hq, ow.2.1]) hR gp
    obtain ⟨s2, k1, k2, k3⟩ := written { a := a1, b := s0.b } (w0.left f) (by simpa [h3] using hid) h2
    exact ⟨s2, (g0.trans fb).trans k1, k2, k3⟩
  · obtain ⟨x, h1, h2⟩ := waiting_written (System.reachable_left h.reach) r q hq hp
    rw [ow.2.1] at h1
    exact written s h hid ⟨x, h1, h2.trans ow.1⟩
  · obtain ⟨s1, h1, h2⟩ : ∃ s1, Endpoint.step ca s.a (.finish r) = some s1 ∧ s1.reqs r = some { q with phase := .finished .replied } := by
      simp only [Endpoint.step, hq, hp]
      exact ⟨_, rfl, by simp [unlisten, setReq]⟩
    have f : Bounded.RFwd ca s.a s1 := .one (op := .finish r) trivial h1
    exact ⟨_, BFwd.left s f, h.left (rfwd_fwd f), _, h2, ow.2.2.1, .inl rfl⟩
  · exact ⟨s, .refl s, h, q, hq, ow.2.2.1, .inl hp⟩

/-- **C97: `await_reply` can complete, with any capacity.** Whatever two endpoints joined by connections of limited capacity have done so far (whose connections take any event
when they are empty), also if both wait for room: a pending `await_reply` made with the connection's context, whose connection is still read on both sides and
whose handler has not panicked (and could write its answer), can still return a reply, by nothing but the receive loops, the other requests and the handlers going on. So two
endpoints wait for each other only as long as replies that have arrived are not read. -/
theorem C97_await_reply_can_complete {s : System.Sys CA CB} (h : Bounded.Reachable ca cb linked roomR roomL s) (hd : System.DistinctIds s) (hl : ∀ c, linked c = true)
    {r : Nat} {q : Req} (hR : ∀ e, roomR q.conn [] e = true) (hL : ∀ e, roomL q.conn [] e = true) (hq : s.a.reqs r = some q) (hkind : q.kind = .single)
    (hp : q.phase = .registered ∨ q.phase = .waiting)
    (hnoref : q.event.referenceId = none) (hra : Receiving s.a q.conn) (hrb : Receiving s.b q.conn)
    (hk : ∀ t k, s.b.tasks t = some k → k.conn = q.conn → k.event = q.event → Healthy k)
    {id : UInt64} (hid : id ∉ s.a.created ++ s.b.created) :
    ∃ ops s' q' e, (∀ op ∈ ops, SysForward op) ∧ Bounded.run ca cb linked roomR roomL s ops = some s' ∧ System.DistinctIds s' ∧
      s'.a.reqs r = some q' ∧ q'.event = q.event ∧ q'.phase = .finished .replied ∧ q'.popped = [e] ∧ e.referenceId = some q.event.id := by
  obtain ⟨s', ⟨ops, h1, h2⟩, w, q', hq', hki, hset⟩ :=
    (way_start (C97_refines h) hd hq hp hra hrb hk).bounded_completes (roomR := roomR) (roomL := roomL) hl hR hL hnoref hid
  obtain ⟨q'', hq'', ow⟩ := w.req
  rw [hq'] at hq''; cases hq''
  have hs : q'.phase = .finished .replied := by
    rcases hset with hset | ⟨hset, _⟩
    · exact hset
    · rw [hki, hkind] at hset; cases hset
  have hsh := (reqInv (System.reachable_left w.reach)).shape r q' hq'
  simp only [Shape, hs] at hsh
  obtain ⟨l, e, he, hsing, _⟩ := hsh
  rw [hsing (hki.trans hkind), List.nil_append] at he
  refine ⟨ops, s', q', e, h1, h2, w.ids, hq', ow.1, hs, he, ?_⟩
  rw [← ow.1]
  exact ((C20_correlated (System.reachable_left w.reach) hq') e (by rw [he]; simp)).1

/-- **C97: `stream_replies` can get to the answer of the handler, with any capacity.** -/
theorem C97_stream_can_complete {s : System.Sys CA CB} (h : Bounded.Reachable ca cb linked roomR roomL s) (hd : System.DistinctIds s) (hl : ∀ c, linked c = true)
    {r : Nat} {q : Req} (hR : ∀ e, roomR q.conn [] e = true) (hL : ∀ e, roomL q.conn [] e = true) (hq : s.a.reqs r = some q) (hkind : q.kind = .stream)
    (hp : q.phase = .registered ∨ q.phase = .waiting)
    (hnoref : q.event.referenceId = none) (hra : Receiving s.a q.conn) (hrb : Receiving s.b q.conn)
    (hk : ∀ t k, s.b.tasks t = some k → k.conn = q.conn → k.event = q.event → Healthy k)
    {id : UInt64} (hid : id ∉ s.a.created ++ s.b.created) :
    ∃ ops s' q', (∀ op ∈ ops, SysForward op) ∧ Bounded.run ca cb linked roomR roomL s ops = some s' ∧ System.DistinctIds s' ∧
      s'.a.reqs r = some q' ∧ q'.event = q.event ∧
      ((q'.phase = .finished .replied ∧ ∃ l e, q'.popped = l ++ [e] ∧ e.eventType = .end) ∨ ∃ e ∈ q'.popped, e.eventType = .error) := by
  obtain ⟨s', ⟨ops, h1, h2⟩, w, q', hq', hki, hset⟩ :=
    (way_start (C97_refines h) hd hq hp hra hrb hk).bounded_completes (roomR := roomR) (roomL := roomL) hl hR hL hnoref hid
  obtain ⟨q'', hq'', ow⟩ := w.req
  rw [hq'] at hq''; cases hq''
  refine ⟨ops, s', q', h1, h2, w.ids, hq', ow.1, ?_⟩
  rcases hset with hset | ⟨_, hset⟩
  · exact .inl ⟨hset, (C22_ended_by_end (System.reachable_left w.reach) hq').1 (hki.trans hkind) hset⟩
  · exact .inr hset

end

/-- The hypotheses can be met in a state where both sides wait for each other (`C97_stuck`): both connections are full and both receive loops wait for a reader. -/
example : ∃ (s : System.Sys Nat Nat) (q : Req), Bounded.Reachable demo demo (fun _ => true) (holds 1) (holds 1) s ∧ System.DistinctIds s ∧ s.a.reqs 0 = some q ∧
    q.kind = .stream ∧ q.phase = .waiting ∧ q.event.referenceId = none ∧ Receiving s.a q.conn ∧ Receiving s.b q.conn ∧
    (∀ t k, s.b.tasks t = some k → k.conn = q.conn → k.event = q.event → Healthy k) ∧ (99 : UInt64) ∉ s.a.created ++ s.b.created ∧
    WaitsFor s.a 0 0 ∧ WaitsFor s.b 0 0 ∧ (∀ e, holds 1 0 (Bounded.pending s.a s.b 0) e = false) ∧ (∀ e, holds 1 0 (Bounded.pending s.b s.a 0) e = false) := by
  have base : ∃ s : System.Sys Nat Nat, Bounded.run demo demo (fun _ => true) (holds 1) (holds 1) {}
      (bothStream ++ [.left (.emit (.task 0) none "a" [] 50), .right (.emit (.task 0) none "a" [] 51)]) = some s ∧
      s.a.loop 0 = .sending 0 (Event.new 27 none "a" [] (some 1) .response) ∧ s.b.loop 0 = .sending 0 (Event.new 26 none "a" [] (some 2) .response) ∧
      (s.a.reqs 0).map (fun q => (q.phase, q.buf.length, q.kind, q.event.referenceId, q.conn)) = some (.waiting, 8, .stream, none, 0) ∧
      (s.b.reqs 0).map (fun q => (q.phase, q.buf.length)) = some (.waiting, 8) ∧
      (Bounded.pending s.a s.b 0).length = 1 ∧ (Bounded.pending s.b s.a 0).length = 1 ∧ (s.b.tasks 0).map (fun k => match k.phase with | .running => true | _ => false) = some true ∧
      (s.a.created ++ s.b.created).Nodup ∧ (99 : UInt64) ∉ s.a.created ++ s.b.created := by
    refine ⟨_, rfl, ?_⟩
    decide +kernel
  obtain ⟨s, hrun, l1, l2, r1, r2, p1, p2, t1, hd, hid⟩ := base
  have htasks : ∀ t, t ≠ 0 → s.b.tasks t = none := by
    intro t ht
    cases hrun
    show upd _ 0 _ t = none
    simp [upd_apply, ht]
  obtain ⟨q, hq, hq'⟩ := Option.map_eq_some_iff.1 r1
  obtain ⟨q2, hq2, hq2'⟩ := Option.map_eq_some_iff.1 r2
  simp only [Prod.mk.injEq] at hq' hq2'
  obtain ⟨e1, e2, e3, e4, e5⟩ := hq'
  refine ⟨s, q, ⟨_, hrun⟩, hd, hq, e3, e1, e4, ?_, ?_, ?_, hid, ⟨_, q, l1, hq, e1, e2⟩, ⟨_, q2, l2, hq2, hq2'.1, hq2'.2⟩, ?_, ?_⟩
  · intro l; rw [e5, l1]; simp
  · intro l; rw [e5, l2]; simp
  · intro t k hk _ _
    by_cases ht : t = 0
    · subst ht
      rw [hk] at t1
      have : k.phase = .running := by
        cases hp : k.phase <;> simp [hp] at t1
        rfl
      simp [Healthy, this]
    · rw [htasks t ht] at hk; cases hk
  · intro e; simp [holds, p1]
  · intro e; simp [holds, p2]

end Bromine.Props
