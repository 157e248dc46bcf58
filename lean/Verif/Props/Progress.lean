import Verif.Lemmas.Progress
/-
C61, C62, C63: what can still become of a request.
-/
namespace Bromine.Props
open Endpoint Spec

section
variable {CA CB : Type} {ca : Config CA} {cb : Config CB} {linked : Nat → Bool}

/-- A forward run of the system. -/
def SFwd (ca : Config CA) (cb : Config CB) (linked : Nat → Bool) (s s' : System.Sys CA CB) : Prop :=
  ∃ ops, (∀ op ∈ ops, SysForward op) ∧ System.run ca cb linked s ops = some s'

theorem SFwd.refl (s : System.Sys CA CB) : SFwd ca cb linked s s := ⟨[], by simp, rfl⟩

theorem SFwd.trans {x y z : System.Sys CA CB} (h : SFwd ca cb linked x y) (h' : SFwd ca cb linked y z) : SFwd ca cb linked x z := by
  obtain ⟨o, h1, h2⟩ := h
  obtain ⟨o', h3, h4⟩ := h'
  refine ⟨o ++ o', ?_, run_append h2 h4⟩
  intro op hop
  rcases List.mem_append.1 hop with h | h
  · exact h1 op h
  · exact h3 op h

theorem SFwd.one {s s' : System.Sys CA CB} {op : System.Op} (hf : SysForward op) (h : System.step ca cb linked s op = some s') : SFwd ca cb linked s s' :=
  ⟨[op], by simpa using hf, by simp [System.run, h]⟩

theorem SFwd.reachable {s s' : System.Sys CA CB} (h : SFwd ca cb linked s s') (hre : System.Reachable ca cb linked s) : System.Reachable ca cb linked s' := by
  obtain ⟨o, _, h2⟩ := h
  obtain ⟨o0, h0⟩ := hre
  exact ⟨_, run_append h0 h2⟩

theorem forward_local {op : Endpoint.Op} (h : Forward op) : System.isLocal linked op = true := by
  cases op <;> first | exact h.elim | rfl

theorem SFwd.left (s : System.Sys CA CB) {a' : State CA} (h : Fwd ca s.a a') : SFwd ca cb linked s { a := a', b := s.b } := by
  obtain ⟨ops, h1, h2⟩ := h
  induction ops generalizing s with
  | nil => simp only [run] at h2; cases h2; exact .refl s
  | cons o ops ih =>
    simp only [run, Option.bind_eq_some_iff] at h2
    obtain ⟨a1, g1, g2⟩ := h2
    have ho := (h1 o List.mem_cons_self).forward
    refine SFwd.trans (SFwd.one (op := .left o) ho (s' := { a := a1, b := s.b }) ?_) (ih _ (fun op hop => h1 op (List.mem_cons_of_mem _ hop)) g2)
    simp [System.step, forward_local ho, g1]

theorem SFwd.right (s : System.Sys CA CB) {b' : State CB} (h : Fwd cb s.b b') : SFwd ca cb linked s { a := s.a, b := b' } := by
  obtain ⟨ops, h1, h2⟩ := h
  induction ops generalizing s with
  | nil => simp only [run] at h2; cases h2; exact .refl s
  | cons o ops ih =>
    simp only [run, Option.bind_eq_some_iff] at h2
    obtain ⟨b1, g1, g2⟩ := h2
    have ho := (h1 o List.mem_cons_self).forward
    refine SFwd.trans (SFwd.one (op := .right o) ho (s' := { a := s.a, b := b1 }) ?_) (ih _ (fun op hop => h1 op (List.mem_cons_of_mem _ hop)) g2)
    simp [System.step, forward_local ho, g1]

/-- Everything written on a connection can arrive. -/
theorem all_arrive_right {c : Nat} (hl : linked c = true) (n : Nat) : ∀ (s : System.Sys CA CB), System.Reachable ca cb linked s →
    (s.a.out c).length - (s.b.arrived c).length = n →
    ∃ s', SFwd ca cb linked s s' ∧ s'.a = s.a ∧ s'.b.arrived c = (s.a.out c).map (·.event) ∧ s'.b.loop = s.b.loop ∧ s'.b.reqs = s.b.reqs ∧
      s'.b.tasks = s.b.tasks ∧ s'.b.created = s.b.created ∧ s'.b.processed = s.b.processed := by
  induction n with
  | zero =>
    intro s hre hn
    have hp := System.fifo_right hre c hl
    have hlen := hp.length_le
    simp only [List.length_map] at hlen
    exact ⟨s, .refl s, rfl, hp.eq_of_length (by simp; omega), rfl, rfl, rfl, rfl, rfl⟩
  | succ n ih =>
    intro s hre hn
    have hlt : (s.b.arrived c).length < (s.a.out c).length := by omega
    obtain ⟨s1, hs1, ha, hb, h1, h2, h3, h4, h5⟩ : ∃ s1, System.step ca cb linked s (.toRight c) = some s1 ∧ s1.a = s.a ∧
        (s1.b.arrived c).length = (s.b.arrived c).length + 1 ∧ s1.b.loop = s.b.loop ∧ s1.b.reqs = s.b.reqs ∧ s1.b.tasks = s.b.tasks ∧
        s1.b.created = s.b.created ∧ s1.b.processed = s.b.processed := by
      simp only [System.step, hl, if_true, List.getElem?_eq_getElem hlt, Endpoint.step, Option.map_some]
      exact ⟨_, rfl, rfl, by simp, rfl, rfl, rfl, rfl, rfl⟩
    have hf : SFwd ca cb linked s s1 := .one (op := .toRight c) trivial hs1
    obtain ⟨s', g0, g1, g2, g3, g4, g5, g6, g7⟩ := ih s1 (hf.reachable hre) (by rw [ha, hb]; omega)
    exact ⟨s', hf.trans g0, g1.trans ha, by rw [g2, ha], g3.trans h1, g4.trans h2, g5.trans h3, g6.trans h4, g7.trans h5⟩

theorem SFwd.swap {s s' : System.Sys CA CB} (h : SFwd ca cb linked s s') : SFwd cb ca linked s.swap s'.swap := by
  obtain ⟨ops, h1, h2⟩ := h
  refine ⟨ops.map System.Op.swap, ?_, ?_⟩
  · intro op hop
    obtain ⟨o, ho, rfl⟩ := List.mem_map.1 hop
    have := h1 o ho
    cases o <;> exact this
  · clear h1
    induction ops generalizing s with
    | nil => cases h2; rfl
    | cons o ops ih =>
      simp only [System.run, Option.bind_eq_some_iff, List.map_cons] at h2 ⊢
      obtain ⟨y, h1, h2⟩ := h2
      rw [System.step_swap, h1]
      exact ⟨y.swap, rfl, ih h2⟩

theorem all_arrive_left {c : Nat} (hl : linked c = true) (s : System.Sys CA CB) (hre : System.Reachable ca cb linked s) :
    ∃ s', SFwd ca cb linked s s' ∧ s'.b = s.b ∧ s'.a.arrived c = (s.b.out c).map (·.event) ∧ s'.a.loop = s.a.loop ∧ s'.a.reqs = s.a.reqs ∧
      s'.a.tasks = s.a.tasks ∧ s'.a.created = s.a.created ∧ s'.a.processed = s.a.processed := by
  obtain ⟨s', h0, h1, h2, h3, h4, h5, h6, h7⟩ := all_arrive_right hl _ s.swap (System.reachable_swap hre) rfl
  exact ⟨s'.swap, h0.swap, h1, h2, h3, h4, h5, h6, h7⟩

/-- What is kept on the way. -/
structure Way (ca : Config CA) (cb : Config CB) (linked : Nat → Bool) (r : Nat) (q0 : Req) (s : System.Sys CA CB) : Prop where
  reach : System.Reachable ca cb linked s
  ids : System.DistinctIds s
  recA : Receiving s.a q0.conn
  recB : Receiving s.b q0.conn
  req : ∃ q, s.a.reqs r = some q ∧ OnWay q0 q
  fine : ∀ t k, s.b.tasks t = some k → k.conn = q0.conn ∧ k.event = q0.event → TaskFine k

variable {r : Nat} {q0 : Req}

theorem Way.left {s : System.Sys CA CB} (h : Way ca cb linked r q0 s) {a' : State CA} (hf : Fwd ca s.a a') :
    Way ca cb linked r q0 { a := a', b := s.b } := by
  have hra := System.reachable_left h.reach
  refine ⟨(SFwd.left s hf).reachable h.reach, ?_, hf.receiving hra h.recA, h.recB, hf.onWay hra h.req, h.fine⟩
  have := h.ids
  simpa [System.DistinctIds, hf.created hra] using this

theorem Way.right {s : System.Sys CA CB} (h : Way ca cb linked r q0 s) {b' : State CB} (hf : Fwd cb s.b b') :
    Way ca cb linked r q0 { a := s.a, b := b' } := by
  have hrb := System.reachable_right h.reach
  refine ⟨(SFwd.right s hf).reachable h.reach, ?_, h.recA, hf.receiving hrb h.recB, h.req,
    hf.taskFine hrb (P := fun c e => c = q0.conn ∧ e = q0.event) h.fine⟩
  have := h.ids
  simpa [System.DistinctIds, hf.created hrb] using this

/-- The first side deals with everything that has been written. -/
theorem Way.drainLeft {s : System.Sys CA CB} (h : Way ca cb linked r q0 s) (hl : ∀ c, linked c = true) :
    ∃ s', SFwd ca cb linked s s' ∧ Way ca cb linked r q0 s' ∧ s'.b = s.b ∧ handledOn s'.a q0.conn = (s.b.out q0.conn).map (·.event) := by
  obtain ⟨s1, g0, g1, g2, g3, g4, g5, g6, g7⟩ := all_arrive_left (hl q0.conn) s h.reach
  have w1 : Way ca cb linked r q0 s1 := by
    refine ⟨g0.reachable h.reach, ?_, ?_, ?_, ?_, ?_⟩
    · have := h.ids; simpa [System.DistinctIds, g1, g6] using this
    · have := h.recA; simpa [Receiving, g3] using this
    · rw [g1]; exact h.recB
    · rw [g4]; exact h.req
    · rw [g1]; exact h.fine
  obtain ⟨a2, f, k1, k2⟩ := drain (System.reachable_left w1.reach) w1.recA
  refine ⟨{ a := a2, b := s1.b }, g0.trans (SFwd.left s1 f), w1.left f, g1, ?_⟩
  have h1 := arrInv (f.reachable (System.reachable_left w1.reach)) q0.conn
  rw [k1, k2] at h1
  have h2 := (f.ext (System.reachable_left w1.reach)).arrived q0.conn
  have h3 := System.fifo_left (w1.left f).reach q0.conn (hl _)
  rw [g2] at h2
  rw [show (System.Sys.mk a2 s1.b).b.out q0.conn = s.b.out q0.conn by rw [g1]] at h3
  have : a2.arrived q0.conn = (s.b.out q0.conn).map (·.event) := h3.eq_of_length_le h2.length_le
  rw [this] at h1
  simpa [held] using h1.symm

/-- The second side deals with everything that has been written. -/
theorem Way.drainRight {s : System.Sys CA CB} (h : Way ca cb linked r q0 s) (hl : ∀ c, linked c = true) :
    ∃ s', SFwd ca cb linked s s' ∧ Way ca cb linked r q0 s' ∧ s'.a = s.a ∧ handledOn s'.b q0.conn = (s.a.out q0.conn).map (·.event) ∧
      s'.b.created = s.b.created := by
  obtain ⟨s1, g0, g1, g2, g3, g4, g5, g6, g7⟩ := all_arrive_right (hl q0.conn) _ s h.reach rfl
  have w1 : Way ca cb linked r q0 s1 := by
    refine ⟨g0.reachable h.reach, ?_, ?_, ?_, ?_, ?_⟩
    · have := h.ids; simpa [System.DistinctIds, g1, g6] using this
    · rw [g1]; exact h.recA
    · have := h.recB; simpa [Receiving, g3] using this
    · rw [g1]; exact h.req
    · rw [g5]; exact h.fine
  obtain ⟨b2, f, k1, k2⟩ := drain (System.reachable_right w1.reach) w1.recB
  refine ⟨{ a := s1.a, b := b2 }, g0.trans (SFwd.right s1 f), w1.right f, g1, ?_, (f.created (System.reachable_right w1.reach)).trans g6⟩
  have h1 := arrInv (f.reachable (System.reachable_right w1.reach)) q0.conn
  rw [k1, k2] at h1
  have h2 := (f.ext (System.reachable_right w1.reach)).arrived q0.conn
  have h3 := System.fifo_right (w1.right f).reach q0.conn (hl _)
  rw [g2] at h2
  rw [show (System.Sys.mk s1.a b2).a.out q0.conn = s.a.out q0.conn by rw [g1]] at h3
  have : b2.arrived q0.conn = (s.a.out q0.conn).map (·.event) := h3.eq_of_length_le h2.length_le
  rw [this] at h1
  simpa [held] using h1.symm

/-- The request has been dealt with: it is finished; or it is a stream that has received an Error event. -/
def Settled (s : System.Sys CA CB) (r : Nat) (q0 : Req) : Prop :=
  ∃ q, s.a.reqs r = some q ∧ q.kind = q0.kind ∧ (q.phase = .finished .replied ∨ (q.kind = .stream ∧ ∃ e ∈ q.popped, e.eventType = .error))

/-- Last stage: the channel of the request holds its answer. -/
theorem Way.receive {s : System.Sys CA CB} (n : Nat) (h : Way ca cb linked r q0 s) {q : Req} (hq : s.a.reqs r = some q) (hn : q.buf.length = n)
    (ha : ∃ e ∈ q.popped ++ q.buf, e.eventType = .end ∨ e.eventType = .error) :
    ∃ s', SFwd ca cb linked s s' ∧ Way ca cb linked r q0 s' ∧ Settled s' r q0 := by
  induction n generalizing s q with
  | zero =>
    obtain ⟨q', hq', ow⟩ := h.req
    rw [hq] at hq'; cases hq'
    have hbuf : q.buf = [] := List.length_eq_zero_iff.1 hn
    have hsh := (reqInv (System.reachable_left h.reach)).shape r q hq
    rcases ow.2.2.2 with hp | hp | ⟨e, hp⟩ | hp
    · simp only [Shape, hp] at hsh
      rw [hsh, hbuf] at ha; simp at ha
    · simp only [Shape, hp] at hsh
      obtain ⟨e, he, hty⟩ := ha
      rw [hbuf, List.append_nil] at he
      refine ⟨s, .refl s, h, q, hq, ow.2.2.1, .inr ⟨?_, e, he, ?_⟩⟩
      · cases hk : q.kind with
        | single => rw [hsh.1 hk] at he; simp at he
        | stream => rfl
      · rcases hty with hty | hty
        · exact absurd hty (hsh.2 e he)
        · exact hty
    · obtain ⟨s1, h1, h2⟩ : ∃ s1, Endpoint.step ca s.a (.finish r) = some s1 ∧ s1.reqs r = some { q with phase := .finished .replied } := by
        simp only [Endpoint.step, hq, hp]
        exact ⟨_, rfl, by simp [unlisten, setReq]⟩
      have f : Fwd ca s.a s1 := .one (op := .finish r) trivial h1
      exact ⟨_, SFwd.left s f, h.left f, _, h2, ow.2.2.1, .inl rfl⟩
    · exact ⟨s, .refl s, h, q, hq, ow.2.2.1, .inl hp⟩
  | succ n ih =>
    obtain ⟨q', hq', ow⟩ := h.req
    rw [hq] at hq'; cases hq'
    have hsh := (reqInv (System.reachable_left h.reach)).shape r q hq
    rcases ow.2.2.2 with hp | hp | ⟨e, hp⟩ | hp
    · -- registered: send it first
      obtain ⟨s1, h1, h2⟩ : ∃ s1, Endpoint.step ca s.a (.sent r) = some s1 ∧ s1.reqs r = some { q with phase := .waiting } := by
        simp only [Endpoint.step, hq, hp, if_true]
        exact ⟨_, rfl, by simp [setReq]⟩
      have f : Fwd ca s.a s1 := .one (op := .sent r) trivial h1
      cases hb : q.buf with
      | nil => rw [hb] at hn; simp at hn
      | cons e rest =>
        obtain ⟨s2, h3, h4⟩ : ∃ s2, Endpoint.step ca s1 (.recv r) = some s2 ∧
            s2.reqs r = some { q with buf := rest, popped := q.popped ++ [e], phase := if q.kind = .single ∨ e.eventType = .end then .closing (some e) else .waiting } := by
          simp only [Endpoint.step, h2, if_true, hb]
          exact ⟨_, rfl, by simp [setReq]⟩
        have f2 : Fwd ca s.a s2 := f.trans (.one (op := .recv r) trivial h3)
        obtain ⟨s', g1, g2, g3⟩ := ih (h.left f2) h4 (by rw [hb] at hn; simpa using hn) (by simpa [hb] using ha)
        exact ⟨s', (SFwd.left s f2).trans g1, g2, g3⟩
    · cases hb : q.buf with
      | nil => rw [hb] at hn; simp at hn
      | cons e rest =>
        obtain ⟨s2, h3, h4⟩ : ∃ s2, Endpoint.step ca s.a (.recv r) = some s2 ∧
            s2.reqs r = some { q with buf := rest, popped := q.popped ++ [e], phase := if q.kind = .single ∨ e.eventType = .end then .closing (some e) else .waiting } := by
          simp only [Endpoint.step, hq, hp, if_true, hb]
          exact ⟨_, rfl, by simp [setReq]⟩
        have f2 : Fwd ca s.a s2 := .one (op := .recv r) trivial h3
        obtain ⟨s', g1, g2, g3⟩ := ih (h.left f2) h4 (by rw [hb] at hn; simpa using hn) (by simpa [hb] using ha)
        exact ⟨s', (SFwd.left s f2).trans g1, g2, g3⟩
    · obtain ⟨s1, h1, h2⟩ : ∃ s1, Endpoint.step ca s.a (.finish r) = some s1 ∧ s1.reqs r = some { q with phase := .finished .replied } := by
        simp only [Endpoint.step, hq, hp]
        exact ⟨_, rfl, by simp [unlisten, setReq]⟩
      have f : Fwd ca s.a s1 := .one (op := .finish r) trivial h1
      exact ⟨_, SFwd.left s f, h.left f, _, h2, ow.2.2.1, .inl rfl⟩
    · exact ⟨s, .refl s, h, q, hq, ow.2.2.1, .inl hp⟩

/-- The answer has been written by the second side. -/
theorem Way.answered {s : System.Sys CA CB} (h : Way ca cb linked r q0 s) (hl : ∀ c, linked c = true) {y : OutEntry}
    (hy : y ∈ s.b.out q0.conn) (href : y.event.referenceId = some q0.event.id) (hty : y.event.eventType = .end ∨ y.event.eventType = .error) :
    ∃ s', SFwd ca cb linked s s' ∧ Way ca cb linked r q0 s' ∧ Settled s' r q0 := by
  obtain ⟨s1, g1, w, g3, g4⟩ := h.drainLeft hl
  obtain ⟨q, hq, ow⟩ := w.req
  by_cases hp : q.phase = .finished .replied
  · exact ⟨s1, g1, w, q, hq, ow.2.2.1, .inl hp⟩
  have halive : q.alive = true := by
    rcases ow.2.2.2 with h | h | ⟨e, h⟩ | h
    · simp [Req.alive, h]
    · simp [Req.alive, h]
    · simp [Req.alive, h]
    · exact absurd h hp
  have hf := System.freshIds w.reach w.ids hl
  have hc := C22_complete (System.reachable_left w.reach) hf hq halive
  have hmem : y.event ∈ handledOn s1.a q0.conn := by rw [g4]; exact List.mem_map_of_mem hy
  simp only [handledOn, List.mem_map, List.mem_filter, decide_eq_true_eq] at hmem
  obtain ⟨x, ⟨hx, hxc⟩, hxe⟩ := hmem
  have hans : answers ca q x = true := by simp [answers, hxe, href, ow.1, hxc, ow.2.1]
  have hin : y.event ∈ q.popped ++ q.buf := by
    rw [hc]
    simp only [List.mem_map, List.mem_filter]
    refine ⟨x, ⟨?_, hans⟩, hxe⟩
    rw [← List.take_append_drop q.regAt s1.a.processed] at hx
    rcases List.mem_append.1 hx with hx | hx
    · have := no_early_reply w.reach w.ids r q hq (fun c _ => hl c) x hx
      rw [hans] at this; cases this
    · exact hx
  obtain ⟨s2, k1, k2, k3⟩ := w.receive _ hq rfl ⟨_, hin, hty⟩
  exact ⟨s2, g1.trans k1, k2, k3⟩

theorem isAnswer_type {fmt : Error → String} {e a : Event} {res : Except Error Bytes} (h : IsAnswer fmt e res a) :
    a.eventType = .end ∨ a.eventType = .error := by
  obtain ⟨_, _, h⟩ := h
  cases res with
  | ok b => exact .inl h.1
  | error x => exact .inr h.1

/-- A handler of the second side has the event. -/
theorem Way.handled {s : System.Sys CA CB} (h : Way ca cb linked r q0 s) (hl : ∀ c, linked c = true) {t : Nat} {k : Endpoint.Task CB}
    (hk : s.b.tasks t = some k) (hkc : k.conn = q0.conn) (hke : k.event = q0.event) {id : UInt64} (hid : id ∉ s.a.created ++ s.b.created) :
    ∃ s', SFwd ca cb linked s s' ∧ Way ca cb linked r q0 s' ∧ Settled s' r q0 := by
  -- the step that writes the answer
  have resp : ∀ (s : System.Sys CA CB) (k : Endpoint.Task CB) (res : Except Error Bytes), Way ca cb linked r q0 s → s.b.tasks t = some k → k.conn = q0.conn →
      k.event = q0.event → k.phase = .responding res → id ∉ s.a.created ++ s.b.created →
      ∃ s', SFwd ca cb linked s s' ∧ Way ca cb linked r q0 s' ∧ Settled s' r q0 := by
    intro s k res h hk hkc hke hp hid
    obtain ⟨b1, h1, h2, h3, h4, h5⟩ : ∃ b1, Endpoint.step cb s.b (.respond t id) = some b1 ∧
        b1.tasks = upd s.b.tasks t (some { k with phase := afterResponse res true }) ∧
        b1.out q0.conn = s.b.out q0.conn ++ [{ origin := .final t, event := finalEvent cb k res id }] ∧ b1.created = s.b.created ++ [id] ∧ b1.loop = s.b.loop := by
      simp only [Endpoint.step, hk, hp]
      exact ⟨_, rfl, rfl, by simp [hkc], rfl, rfl⟩
    have hstep : System.step ca cb linked s (.right (.respond t id)) = some { a := s.a, b := b1 } := by
      simp [System.step, System.isLocal, h1]
    have f : SFwd ca cb linked s { a := s.a, b := b1 } := .one (op := .right (.respond t id)) trivial hstep
    have w : Way ca cb linked r q0 { a := s.a, b := b1 } := by
      refine ⟨f.reachable h.reach, ?_, h.recA, ?_, h.req, ?_⟩
      · have hd := h.ids
        simp only [System.DistinctIds, h4] at hd ⊢
        rw [← List.append_assoc, List.nodup_append]
        refine ⟨hd, by simp, ?_⟩
        rintro a ha b hb rfl
        rw [List.mem_singleton.1 hb] at ha
        exact hid ha
      · have := h.recB; simpa [Receiving, h5] using this
      · intro t' k' hk' hh
        rw [h2] at hk'
        rcases upd_some hk' with ⟨rfl, rfl⟩ | ⟨_, hk'⟩
        · cases res <;> simp [TaskFine, afterResponse]
        · exact h.fine t' k' hk' hh
    have hia := finalEvent_isAnswer (cfg := cb) k res id
    obtain ⟨s2, k1, k2, k3⟩ := w.answered hl (y := { origin := .final t, event := finalEvent cb k res id }) (by simp [h3]) (by rw [finalEvent_ref, hke])
      (isAnswer_type hia)
    exact ⟨s2, f.trans k1, k2, k3⟩
  have hrb := System.reachable_right h.reach
  rcases h.fine t k hk ⟨hkc, hke⟩ with hp | ⟨res, hp⟩ | hp
  · obtain ⟨res, hres⟩ := some_result (cfg := cb) k
    obtain ⟨b1, h1, h2, h3⟩ : ∃ b1, Endpoint.step cb s.b (.handlerDone t res) = some b1 ∧ b1.tasks t = some { k with phase := .responding res } ∧
        b1.created = s.b.created := by
      simp only [Endpoint.step, hk, hp, hres, if_true]
      exact ⟨_, rfl, by simp, rfl⟩
    have f : Fwd cb s.b b1 := .one (op := .handlerDone t res) trivial h1
    obtain ⟨s2, k1, k2, k3⟩ := resp { a := s.a, b := b1 } _ res (h.right f) h2 hkc hke rfl (by simpa [h3] using hid)
    exact ⟨s2, (SFwd.right s f).trans k1, k2, k3⟩
  · exact resp s k res h hk hkc hke hp hid
  · -- already written
    have hm : ∃ y ∈ s.b.out q0.conn, y.event.referenceId = some q0.event.id ∧ (y.event.eventType = .end ∨ y.event.eventType = .error) := by
      have hfi := finals hrb t q0.conn
      have : ∃ res id, emittedBy s.b q0.conn (.final t) = [finalEvent cb k res id] := by
        rcases hp with ⟨res, hp⟩ | ⟨res, hp⟩
        · simp only [Finals, hk, hp, hkc, and_self, if_true] at hfi
          obtain ⟨i, hi⟩ := hfi; exact ⟨res, i, hi⟩
        · simp only [Finals, hk, hp, hkc, and_self, if_true] at hfi
          obtain ⟨i, hi⟩ := hfi; exact ⟨res, i, hi⟩
      obtain ⟨res, i, hi⟩ := this
      have hmem : finalEvent cb k res i ∈ emittedBy s.b q0.conn (.final t) := by rw [hi]; simp
      simp only [emittedBy, List.mem_map, List.mem_filter] at hmem
      obtain ⟨y, ⟨hy, _⟩, hye⟩ := hmem
      exact ⟨y, hy, by rw [hye, finalEvent_ref, hke], by rw [hye]; exact isAnswer_type (finalEvent_isAnswer (cfg := cb) k res i)⟩
    obtain ⟨y, hy, h1, h2⟩ := hm
    exact h.answered hl hy h1 h2

theorem Way.completes {s : System.Sys CA CB} (h : Way ca cb linked r q0 s) (hl : ∀ c, linked c = true) (hnoref : q0.event.referenceId = none)
    {id : UInt64} (hid : id ∉ s.a.created ++ s.b.created) :
    ∃ s', SFwd ca cb linked s s' ∧ Way ca cb linked r q0 s' ∧ Settled s' r q0 := by
  -- the event is written
  have written : ∀ s : System.Sys CA CB, Way ca cb linked r q0 s → id ∉ s.a.created ++ s.b.created → (∃ x ∈ s.a.out q0.conn, x.event = q0.event) →
      ∃ s', SFwd ca cb linked s s' ∧ Way ca cb linked r q0 s' ∧ Settled s' r q0 := by
    rintro s h hid ⟨x, hx, hxe⟩
    obtain ⟨s1, g1, w, g3, g4, g5⟩ := h.drainRight hl
    have hid1 : id ∉ s1.a.created ++ s1.b.created := by rw [g3, g5]; exact hid
    have hmem : q0.event ∈ handledOn s1.b q0.conn := by rw [g4, ← hxe]; exact List.mem_map_of_mem hx
    simp only [handledOn, List.mem_map, List.mem_filter, decide_eq_true_eq] at hmem
    obtain ⟨z, ⟨hz, hzc⟩, hze⟩ := hmem
    obtain ⟨q, hq, ow⟩ := w.req
    rcases (C28_exactly_once (System.reachable_right w.reach)).1 z hz with ⟨r', q', _, _, hans⟩ | ⟨t, k, _, hk, hke, hkc⟩ | ⟨_, hty⟩
    · simp [answers, hze, hnoref] at hans
    · obtain ⟨s2, k1, k2, k3⟩ := w.handled hl hk (hkc.trans hzc) (hke.trans hze) hid1
      exact ⟨s2, g1.trans k1, k2, k3⟩
    · have ho := (outInv (System.reachable_left w.reach)).req r q hq
      rw [hze] at hty
      rcases hqo : q.origin with _ | t2 | t2
      · rw [hqo] at ho
        have := ho.1.2
        rw [ow.1, hty] at this
        cases this
      · rw [hqo] at ho
        obtain ⟨k2, _, _, _, g, _⟩ := ho.1
        rw [ow.1, hnoref] at g
        cases g
      · exact absurd hqo (ho.2 t2)
  obtain ⟨q, hq, ow⟩ := h.req
  rcases ow.2.2.2 with hp | hp | ⟨e, hp⟩ | hp
  · obtain ⟨a1, h1, h2, h3⟩ : ∃ a1, Endpoint.step ca s.a (.sent r) = some a1 ∧ (∃ x ∈ a1.out q0.conn, x.event = q0.event) ∧ a1.created = s.a.created := by
      simp only [Endpoint.step, hq, hp, if_true]
      exact ⟨_, rfl, ⟨{ origin := q.origin, event := q.event }, by simp [ow.2.1], ow.1⟩, rfl⟩
    have f : Fwd ca s.a a1 := .one (op := .sent r) trivial h1
    obtain ⟨s2, k1, k2, k3⟩ := written { a := a1, b := s.b } (h.left f) (by simpa [h3] using hid) h2
    exact ⟨s2, (SFwd.left s f).trans k1, k2, k3⟩
  · obtain ⟨x, h1, h2⟩ := waiting_written (System.reachable_left h.reach) r q hq hp
    rw [ow.2.1] at h1
    exact written s h hid ⟨x, h1, h2.trans ow.1⟩
  · obtain ⟨s1, h1, h2⟩ : ∃ s1, Endpoint.step ca s.a (.finish r) = some s1 ∧ s1.reqs r = some { q with phase := .finished .replied } := by
      simp only [Endpoint.step, hq, hp]
      exact ⟨_, rfl, by simp [unlisten, setReq]⟩
    have f : Fwd ca s.a s1 := .one (op := .finish r) trivial h1
    exact ⟨_, SFwd.left s f, h.left f, _, h2, ow.2.2.1, .inl rfl⟩
  · exact ⟨s, .refl s, h, q, hq, ow.2.2.1, .inl hp⟩

theorem healthy_fine {CB : Type} {k : Endpoint.Task CB} (h : Healthy k) : TaskFine k := by
  obtain ⟨h1, h2⟩ := h
  cases hp : k.phase with
  | running => exact .inl hp
  | responding res => exact .inr (.inl ⟨res, hp⟩)
  | crashed => exact absurd hp h1
  | cleaning res sent =>
    cases sent
    · exact absurd hp (h2 res).1
    · exact .inr (.inr (.inl ⟨res, hp⟩))
  | done res sent =>
    cases sent
    · exact absurd hp (h2 res).2
    · exact .inr (.inr (.inr ⟨res, hp⟩))

/-- The start of the way. -/
theorem way_start {s : System.Sys CA CB} (h : System.Reachable ca cb linked s) (hd : System.DistinctIds s) {r : Nat} {q : Req}
    (hq : s.a.reqs r = some q) (hp : q.phase = .registered ∨ q.phase = .waiting) (hra : Receiving s.a q.conn) (hrb : Receiving s.b q.conn)
    (hk : ∀ t k, s.b.tasks t = some k → k.conn = q.conn → k.event = q.event → Healthy k) : Way ca cb linked r q s := by
  refine ⟨h, hd, hra, hrb, ⟨q, hq, rfl, rfl, rfl, ?_⟩, fun t k h1 h2 => healthy_fine (hk t k h1 h2.1 h2.2)⟩
  rcases hp with hp | hp
  · exact .inl hp
  · exact .inr (.inl hp)

/-- **C61: `await_reply` can complete.** Whatever two joined endpoints have done so far: a pending `await_reply` made with the connection's context,
whose connection is still read on both sides and whose handler has not panicked (and could write its answer), can still return a reply, by nothing
but the receive loops, the other requests and the handlers going on: no state is stuck for good. -/
theorem C61_await_reply_can_complete {s : System.Sys CA CB} (h : System.Reachable ca cb linked s) (hd : System.DistinctIds s) (hl : ∀ c, linked c = true)
    {r : Nat} {q : Req} (hq : s.a.reqs r = some q) (hkind : q.kind = .single) (hp : q.phase = .registered ∨ q.phase = .waiting)
    (hnoref : q.event.referenceId = none) (hra : Receiving s.a q.conn) (hrb : Receiving s.b q.conn)
    (hk : ∀ t k, s.b.tasks t = some k → k.conn = q.conn → k.event = q.event → Healthy k)
    {id : UInt64} (hid : id ∉ s.a.created ++ s.b.created) :
    ∃ ops s' q' e, (∀ op ∈ ops, SysForward op) ∧ System.run ca cb linked s ops = some s' ∧ System.DistinctIds s' ∧
      s'.a.reqs r = some q' ∧ q'.event = q.event ∧ q'.phase = .finished .replied ∧ q'.popped = [e] ∧ e.referenceId = some q.event.id := by
  obtain ⟨s', ⟨ops, h1, h2⟩, w, q', hq', hki, hset⟩ := (way_start h hd hq hp hra hrb hk).completes hl hnoref hid
  obtain ⟨q'', hq'', ow⟩ := w.req
  rw [hq'] at hq''; cases hq''
  have hs : q'.phase = .finished .replied := by
    rcases hset with hset | ⟨hset, _⟩
    · exact hset
    · rw [hki, hkind] at hset; cases hset
  have hsh := (reqInv (System.reachable_left w.reach)).shape r q' hq'
  simp only [Shape, hs] at hsh
  obtain ⟨l, e, he, hsing, _⟩ := hsh
  rw [hsing (hki.trans hkind), List.nil_append] at he
  refine ⟨ops, s', q', e, h1, h2, w.ids, hq', ow.1, hs, he, ?_⟩
  rw [← ow.1]
  exact ((C20_correlated (System.reachable_left w.reach) hq') e (by rw [he]; simp)).1

/-- **C61: `stream_replies` can get to the answer of the handler.** The same for a stream: it can be brought to its end by the End event, or to
yielding the Error event of its handler (which does not end it, C63). -/
theorem C61_stream_can_complete {s : System.Sys CA CB} (h : System.Reachable ca cb linked s) (hd : System.DistinctIds s) (hl : ∀ c, linked c = true)
    {r : Nat} {q : Req} (hq : s.a.reqs r = some q) (hkind : q.kind = .stream) (hp : q.phase = .registered ∨ q.phase = .waiting)
    (hnoref : q.event.referenceId = none) (hra : Receiving s.a q.conn) (hrb : Receiving s.b q.conn)
    (hk : ∀ t k, s.b.tasks t = some k → k.conn = q.conn → k.event = q.event → Healthy k)
    {id : UInt64} (hid : id ∉ s.a.created ++ s.b.created) :
    ∃ ops s' q', (∀ op ∈ ops, SysForward op) ∧ System.run ca cb linked s ops = some s' ∧ System.DistinctIds s' ∧
      s'.a.reqs r = some q' ∧ q'.event = q.event ∧
      ((q'.phase = .finished .replied ∧ ∃ l e, q'.popped = l ++ [e] ∧ e.eventType = .end) ∨ ∃ e ∈ q'.popped, e.eventType = .error) := by
  obtain ⟨s', ⟨ops, h1, h2⟩, w, q', hq', hki, hset⟩ := (way_start h hd hq hp hra hrb hk).completes hl hnoref hid
  obtain ⟨q'', hq'', ow⟩ := w.req
  rw [hq'] at hq''; cases hq''
  refine ⟨ops, s', q', h1, h2, w.ids, hq', ow.1, ?_⟩
  rcases hset with hset | ⟨_, hset⟩
  · exact .inl ⟨hset, (C22_ended_by_end (System.reachable_left w.reach) hq').1 (hki.trans hkind) hset⟩
  · exact .inr hset

end

/-- The second side has made a stream request and does not read its stream; the handler of the first side has emitted 9 events for it. Then the first
side makes a request, whose event arrives behind them. -/
def opsBehind : List System.Op :=
  [.right (.request 0 (.conn 0) .stream none "ping" [] 7), .right (.sent 0), .toLeft 0, .left (.take 0 3)] ++
  (List.range 9).map (fun i => .left (.emit (.task 3) none "a" [] (UInt64.ofNat (100 + i)))) ++
  [.left (.request 0 (.conn 0) .single none "ping" [] 50), .left (.sent 0)] ++
  (List.range 10).map (fun _ => .toRight 0) ++
  (List.range 8).flatMap (fun _ => [.right (.take 0 0), .right (.deliver 0 0)]) ++ [.right (.take 0 0)]

/-- The hypotheses of C61 can be met, in a state where the receive loop of the second side is blocked by a full channel and the request's event is
behind it. -/
example : ∃ (s : System.Sys Nat Nat) (q : Req) (e : Event), System.Reachable demo demo (fun _ => true) s ∧ System.DistinctIds s ∧ s.a.reqs 0 = some q ∧
    q.kind = .single ∧ q.phase = .waiting ∧ q.event.referenceId = none ∧ Receiving s.a q.conn ∧ Receiving s.b q.conn ∧ s.b.tasks = (fun _ => none) ∧
    s.b.loop 0 = .sending 0 e ∧ s.b.inbox 0 = [q.event] ∧ (99 : UInt64) ∉ s.a.created ++ s.b.created := by
  obtain ⟨s, hs⟩ : ∃ s, System.run demo demo (fun _ => true) {} opsBehind = some s := ⟨_, rfl⟩
  have hre : System.Reachable demo demo (fun _ => true) s := ⟨_, hs⟩
  have hcr : s.a.created = [100, 101, 102, 103, 104, 105, 106, 107, 108, 50] ∧ s.b.created = [7] := by cases hs; exact ⟨rfl, rfl⟩
  have hd : System.DistinctIds s := by
    show (s.a.created ++ s.b.created).Nodup
    rw [hcr.1, hcr.2]; decide +kernel
  have hid : (99 : UInt64) ∉ s.a.created ++ s.b.created := by rw [hcr.1, hcr.2]; decide +kernel
  have hla : s.a.loop 0 = .idle := by cases hs; rfl
  have hlb : ∃ e, s.b.loop 0 = .sending 0 e := by cases hs; exact ⟨_, rfl⟩
  obtain ⟨e, hlb⟩ := hlb
  have hq : ∃ q, s.a.reqs 0 = some q ∧ q.kind = .single ∧ q.phase = .waiting ∧ q.event.referenceId = none ∧ q.conn = 0 ∧ s.b.inbox 0 = [q.event] := by
    cases hs; exact ⟨_, rfl, rfl, rfl, rfl, rfl, rfl⟩
  obtain ⟨q, h1, h2, h3, h4, h5, h6⟩ := hq
  refine ⟨s, q, e, hre, hd, h1, h2, h3, h4, ?_, ?_, by cases hs; rfl, hlb, h6, hid⟩
  · intro l; rw [h5, hla]; simp
  · intro l; rw [h5, hlb]; simp

/-! ### C62: requests made by a handler -/

section
variable {CA CB : Type} {ca : Config CA} {cb : Config CB} {linked : Nat → Bool}

/-- What is written stays written, for both sides. -/
theorem sys_run_ext {s s' : System.Sys CA CB} {ops : List System.Op} (hre : System.Reachable ca cb linked s)
    (hr : System.run ca cb linked s ops = some s') : Ext s.a s'.a ∧ Ext s.b s'.b ∧ System.Reachable ca cb linked s' := by
  induction ops generalizing s with
  | nil => cases hr; exact ⟨.refl _, .refl _, hre⟩
  | cons o ops ih =>
    simp only [System.run, Option.bind_eq_some_iff] at hr
    obtain ⟨y, h1, h2⟩ := hr
    have hy : System.Reachable ca cb linked y := by
      obtain ⟨o0, h0⟩ := hre
      exact ⟨_, run_append h0 (show System.run ca cb linked s [o] = some y by simp [System.run, h1])⟩
    obtain ⟨g1, g2, g3⟩ := ih hy h2
    rcases System.step_cases h1 with ⟨o', k1, k2, _⟩ | ⟨o', k1, k2, _⟩
    · exact ⟨(stepR_of_step k1).ext.trans g1, by rw [← k2]; exact g2, g3⟩
    · exact ⟨by rw [← k2]; exact g1, (stepR_of_step k1).ext.trans g2, g3⟩

/-- **C62: an event that the peer took for a reply is never answered.** If the event of a request was delivered to a request of the other side, then the
request never receives anything, whatever happens afterwards: it can only time out, fail or be dropped. -/
theorem C62_taken_as_reply {s s' : System.Sys CA CB} (h : System.Reachable ca cb linked s) (hl : ∀ c, linked c = true) {r : Nat} {q : Req}
    (hq : s.a.reqs r = some q) {z : Entry} (hz : z ∈ s.b.processed) (hzc : z.conn = q.conn) (hze : z.event = q.event) {r' : Nat} (hzd : z.dest = .reply r')
    {ops : List System.Op} (hrun : System.run ca cb linked s ops = some s') (hd : System.DistinctIds s') :
    ∃ q', s'.a.reqs r = some q' ∧ q'.event = q.event ∧ q'.popped = [] ∧
      (q'.phase = .registered ∨ q'.phase = .waiting ∨ q'.phase = .finished .timeout ∨ q'.phase = .finished .failed ∨ q'.phase = .finished .dropped) := by
  obtain ⟨e1, e2, hre'⟩ := sys_run_ext h hrun
  obtain ⟨q', hq', he, hc, _⟩ := e1.reqs r q hq
  have hf := System.freshIds hre' hd hl
  have hpop : q'.popped = [] := by
    by_cases hpop : q'.popped = []
    · exact hpop
    obtain ⟨t, k, hk, hke, hkc, _⟩ := C46_end_to_end hre' hd hf hq' (fun c _ => hl c) hpop
    have hrb := System.reachable_right hre'
    have h1 := (C28_exactly_once hrb).2.1 t k hk
    have hm : ({ conn := k.conn, event := k.event, dest := .handler t } : Entry) ∈ s'.b.processed := by
      have : ({ conn := k.conn, event := k.event, dest := .handler t } : Entry) ∈ s'.b.processed.filter fun x => decide (x.dest = .handler t) := by
        rw [h1]; simp
      exact (List.mem_filter.1 this).1
    have hz' := e2.processed.subset hz
    have hnd : ((s'.b.processed.filter fun x => decide (x.conn = q.conn)).map fun x => x.event.id).Nodup := by
      have h1 : handledOn s'.b q.conn <+: (s'.a.out q.conn).map (·.event) := by
        refine List.IsPrefix.trans ?_ (System.fifo_right hre' q.conn (hl _))
        rw [arrInv hrb, List.append_assoc]
        exact List.prefix_append _ _
      have h2 := (h1.sublist.map (·.id))
      have h3 := out_ids_nodup (unique (System.reachable_left hre') hd.left) q.conn
      rw [List.map_map] at h2
      have := h3.sublist h2
      rw [handledOn, List.map_map] at this
      exact this
    have := List.inj_on_of_nodup_map hnd (x := z) (y := { conn := k.conn, event := k.event, dest := .handler t })
      (by simp [hz', hzc]) (List.mem_filter.2 ⟨hm, by simp [hkc, hc]⟩) (by simp [hze, hke, he])
    rw [this] at hzd
    cases hzd
  refine ⟨q', hq', he, hpop, ?_⟩
  have hsh := (reqInv (System.reachable_left hre')).shape r q' hq'
  obtain ⟨c1, c2⟩ := C51_never_closed (System.reachable_left hre') hf hq'
  cases hp : q'.phase with
  | registered => simp
  | waiting => simp
  | closing l =>
    cases l with
    | none => exact absurd hp c2
    | some e => simp only [Shape, hp] at hsh; obtain ⟨l, hh, _⟩ := hsh; rw [hpop] at hh; simp at hh
  | finished how =>
    cases how with
    | replied => simp only [Shape, hp] at hsh; obtain ⟨l, e, hh, _⟩ := hsh; rw [hpop] at hh; simp at hh
    | timeout => simp
    | failed => simp
    | dropped => simp
    | closed => exact absurd hp c1

/-- **C62: a handler's own request to the peer that waits for the handler is not answered.** As long as the request `r'` of the second side is
pending (a stream, say), a request made with the context of its handler receives nothing: the peer takes it for a reply. -/
theorem C62_nested_request_unanswered {s : System.Sys CA CB} (h : System.Reachable ca cb linked s) (hd : System.DistinctIds s) (hl : ∀ c, linked c = true)
    {r r' : Nat} {q q' : Req} (hq : s.a.reqs r = some q) (hq' : s.b.reqs r' = some q') (ha : q'.alive = true)
    (href : q.event.referenceId = some q'.event.id) (hc : q.conn = q'.conn) : q.popped = [] := by
  by_cases hpop : q.popped = []
  · exact hpop
  have hf := System.freshIds h hd hl
  have hsw := System.reachable_swap h
  have hfb : FreshIds cb s.b := System.freshIds hsw hd.swap hl
  obtain ⟨t, k, hk, hke, hkc, _⟩ := C46_end_to_end h hd hf hq (fun c _ => hl c) hpop
  have hrb := System.reachable_right h
  have h1 := (C28_exactly_once hrb).2.1 t k hk
  have hm : ({ conn := k.conn, event := k.event, dest := .handler t } : Entry) ∈ s.b.processed := by
    have : ({ conn := k.conn, event := k.event, dest := .handler t } : Entry) ∈ s.b.processed.filter fun x => decide (x.dest = .handler t) := by
      rw [h1]; simp
    exact (List.mem_filter.1 this).1
  have hans : answers cb q' { conn := k.conn, event := k.event, dest := .handler t } = true := by
    simp [answers, hke, href, hkc, hc]
  rw [← List.take_append_drop q'.regAt s.b.processed] at hm
  rcases List.mem_append.1 hm with hm | hm
  · have := no_early_reply hsw hd.swap r' q' hq' (fun c _ => hl c) _ hm
    rw [hans] at this; cases this
  · have := C28_reply_not_handled hrb hfb hq' ha hm rfl
    rw [hans] at this; cases this

end

/-- The hypotheses of C62 can be met: the first side's handler (for a request of the second side) makes a request itself; the second side takes its
event for the reply. -/
example : ∃ (s : System.Sys Nat Nat) (q q' : Req) (z : Entry), System.Reachable demo demo (fun _ => true) s ∧ System.DistinctIds s ∧ s.a.reqs 0 = some q ∧
    q.phase = .waiting ∧ s.b.reqs 0 = some q' ∧ q'.alive = true ∧ q.event.referenceId = some q'.event.id ∧ q.conn = q'.conn ∧
    z ∈ s.b.processed ∧ z.conn = q.conn ∧ z.event = q.event ∧ z.dest = .reply 0 := by
  obtain ⟨s, hs⟩ : ∃ s, System.run demo demo (fun _ => true) {} [.right (.request 0 (.conn 0) .single none "ping" [] 7), .right (.sent 0), .toLeft 0,
    .left (.take 0 3), .left (.request 0 (.task 3) .single none "ping" [] 20), .left (.sent 0), .toRight 0, .right (.take 0 0), .right (.deliver 0 0)] =
    some s := ⟨_, rfl⟩
  have hre : System.Reachable demo demo (fun _ => true) s := ⟨_, hs⟩
  cases hs
  exact ⟨_, _, _, _, hre, (by decide +kernel : ([20] ++ [7] : List UInt64).Nodup), rfl, rfl, rfl, rfl, rfl, rfl, List.mem_singleton.2 rfl, rfl, rfl, rfl⟩

/-! ### C63: a stream whose handler has failed -/

section
variable {CA CB : Type} {ca : Config CA} {cb : Config CB} {linked : Nat → Bool}

theorem failed_step {CB : Type} {cfg : Config CB} {s s' : State CB} {op : Endpoint.Op} (hs : StepR cfg s op s') {t : Nat}
    (h : ∃ k, s.tasks t = some k ∧ HandlerFailed k) : ∃ k, s'.tasks t = some k ∧ HandlerFailed k := by
  obtain ⟨k, hk, hf⟩ := h
  cases hs
  all_goals try exact ⟨k, hk, hf⟩
  all_goals simp only [upd_apply]
  all_goals split
  all_goals try exact ⟨k, hk, hf⟩
  all_goals rename_i htt
  all_goals subst htt
  all_goals simp_all [HandlerFailed, afterResponse]
  all_goals (obtain ⟨x, rfl⟩ := hf; simp)

theorem sys_failed_stays {s s' : System.Sys CA CB} {ops : List System.Op} (hr : System.run ca cb linked s ops = some s') {t : Nat}
    (h : ∃ k, s.b.tasks t = some k ∧ HandlerFailed k) : ∃ k, s'.b.tasks t = some k ∧ HandlerFailed k := by
  induction ops generalizing s with
  | nil => cases hr; exact h
  | cons o ops ih =>
    simp only [System.run, Option.bind_eq_some_iff] at hr
    obtain ⟨y, h1, h2⟩ := hr
    refine ih h2 ?_
    rcases System.step_cases h1 with ⟨o', k1, k2, _⟩ | ⟨o', k1, k2, _⟩
    · rw [k2]; exact h
    · exact failed_step (stepR_of_step k1) h

/-- **C63: a stream whose handler has failed never ends.** If the handler of the event of a `stream_replies` has returned an error (or panicked), then
in every continuation the stream never yields an End event and is never finished by one: after the Error event it stays pending until it times out or
is dropped. -/
theorem C63_failed_stream_never_ends {s s' : System.Sys CA CB} (h : System.Reachable ca cb linked s) (hl : ∀ c, linked c = true) {r : Nat} {q : Req}
    (hq : s.a.reqs r = some q) (hkind : q.kind = .stream) {t : Nat} {k : Endpoint.Task CB} (hk : s.b.tasks t = some k) (hke : k.event = q.event)
    (hkc : k.conn = q.conn) (hfail : HandlerFailed k) {ops : List System.Op} (hrun : System.run ca cb linked s ops = some s')
    (hd : System.DistinctIds s') :
    ∃ q', s'.a.reqs r = some q' ∧ q'.event = q.event ∧ (∀ e ∈ q'.popped, e.eventType ≠ .end) ∧
      (q'.phase = .registered ∨ q'.phase = .waiting ∨ q'.phase = .finished .timeout ∨ q'.phase = .finished .failed ∨ q'.phase = .finished .dropped) := by
  obtain ⟨e1, e2, hre'⟩ := sys_run_ext h hrun
  obtain ⟨q', hq', he, hc, hki, _⟩ := e1.reqs r q hq
  obtain ⟨k1, hk1, hke1, hkc1, _⟩ := e2.tasks t k hk
  obtain ⟨k2, hk2, hf2⟩ := sys_failed_stays hrun ⟨k, hk, hfail⟩
  rw [hk1] at hk2
  cases hk2
  have hf := System.freshIds hre' hd hl
  have hend : ∀ e ∈ q'.popped, e.eventType ≠ .end := by
    intro e hmem hty
    obtain ⟨t', k', res, g1, g2, g3, g4, g5⟩ := C46_final_result hre' hd hf hq' (fun c _ => hl c) hmem (.inl hty)
    have : t' = t := one_task hre' hd (hl _) g1 hk1 g3 (by rw [hkc1, hkc, hc]) (by rw [g2, hke1, hke, he])
    subst this
    rw [hk1] at g1
    cases g1
    cases res with
    | ok b => rcases g5 with g5 | g5 <;> simp [HandlerFailed, g5] at hf2
    | error x => obtain ⟨_, _, g, _⟩ := g4; rw [hty] at g; cases g
  refine ⟨q', hq', he, hend, ?_⟩
  have hsh := (reqInv (System.reachable_left hre')).shape r q' hq'
  obtain ⟨c1, c2⟩ := C51_never_closed (System.reachable_left hre') hf hq'
  cases hp : q'.phase with
  | registered => simp
  | waiting => simp
  | closing l =>
    cases l with
    | none => exact absurd hp c2
    | some e =>
      simp only [Shape, hp] at hsh; obtain ⟨l, hh, _, _, h3⟩ := hsh
      exact absurd (h3 (hki.trans hkind)) (hend e (by rw [hh]; simp))
  | finished how =>
    cases how with
    | replied =>
      simp only [Shape, hp] at hsh; obtain ⟨l, e, hh, _, _, h3⟩ := hsh
      exact absurd (h3 (hki.trans hkind)) (hend e (by rw [hh]; simp))
    | timeout => simp
    | failed => simp
    | dropped => simp
    | closed => exact absurd hp c1

end

/-- The hypotheses of C63 can be met: the stream has yielded the Error event of its handler, and is still pending. -/
example : ∃ (s : System.Sys Nat Nat) (q : Req) (k : Endpoint.Task Nat), System.Reachable demo demo (fun _ => true) s ∧ System.DistinctIds s ∧
    s.a.reqs 0 = some q ∧ q.kind = .stream ∧ q.phase = .waiting ∧ q.popped.map (·.eventType) = [.error] ∧ s.b.tasks 3 = some k ∧ k.event = q.event ∧
    k.conn = q.conn ∧ HandlerFailed k := by
  obtain ⟨s, hs⟩ : ∃ s, System.run demo demo (fun _ => true) {} [.left (.request 0 (.conn 0) .stream none "ping" [] 7), .left (.sent 0), .toRight 0,
    .right (.take 0 3), .right (.handlerDone 3 (.error .receive)), .right (.respond 3 20), .toLeft 0, .left (.take 0 0), .left (.deliver 0 0),
    .left (.recv 0)] = some s := ⟨_, rfl⟩
  have hre : System.Reachable demo demo (fun _ => true) s := ⟨_, hs⟩
  cases hs
  exact ⟨_, _, _, hre, (by decide +kernel : ([7] ++ [20] : List UInt64).Nodup), rfl, rfl, rfl, rfl, rfl, rfl, rfl, .inr ⟨_, .inr (.inr ⟨_, rfl⟩)⟩⟩

end Bromine.Props
