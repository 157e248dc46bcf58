import Verif.Lemmas.Lossy
import Verif.Props.System
import Verif.Lemmas.DropLink
import Verif.Lemmas.LayerDropLink
import Verif.Props.Stack
/-
C78: two endpoints joined by connections that lose events.
-/
namespace Bromine.Props
open Endpoint Spec

section
variable {CA CB : Type} {ca : Config CA} {cb : Config CB} {linked : Nat → Bool}

/-- No event that refers to a request is received before its registration. -/
theorem lossy_no_early_reply {s : System.Sys CA CB} (h : Lossy.Reachable ca cb linked s) : System.DistinctIds s →
    ∀ r q, s.a.reqs r = some q → (∀ c, ca.group c = ca.group q.conn → linked c = true) →
    ∀ x ∈ s.a.processed.take q.regAt, answers ca q x = false := by
  induction h with
  | init => simp
  | @right s op b h hs hc ih =>
    intro hd r q hq hl x hx
    refine ih (hd.sublist (List.Sublist.append (List.Sublist.refl _) ?_)) r q hq hl x hx
    exact (stepR_of_step hs).ext.created.sublist
  | @left s op a h hs hc ih =>
    intro hd r q hq hl x hx
    have hd0 : System.DistinctIds s :=
      hd.sublist (List.Sublist.append (stepR_of_step hs).ext.created.sublist (List.Sublist.refl _))
    rcases req_back (stepR_of_step hs) hq with ⟨q0, g1, g2, g3, g4⟩ | ⟨g1, g2⟩
    · have hlen := ((reqInv (Lossy.reachable_left h)).late r q0 g1).1
      obtain ⟨l, hpl⟩ := (stepR_of_step hs).ext.processed
      rw [← hpl, ← g4, List.take_append_of_le_length hlen] at hx
      have := ih hd0 r q0 g1 (by rw [g3]; exact hl) x hx
      simpa [answers, g2, g3] using this
    · have hre' := Lossy.Reachable.left h hs hc
      refine Bool.eq_false_iff.2 fun hans => ?_
      simp only [answers, Bool.and_eq_true, decide_eq_true_eq] at hans
      have hxm : x ∈ a.processed := List.mem_of_mem_take hx
      have harr : x.event ∈ a.arrived x.conn := by
        rw [arrInv (Lossy.reachable_left hre')]
        simp [handled_mem hxm]
      obtain ⟨y, _, _, t, k, _, _, hkid, _, z, hz, hze⟩ := Lossy.reply_source hre' (hl _ hans.2) harr hans.1
      exact (unique (Lossy.reachable_left hre') hd.left).unsent r q hq g1 x.conn z hz (by rw [hze, hkid])

/-- An event is handled by one task only. -/
theorem lossy_one_task {s : System.Sys CA CB} (h : Lossy.Reachable ca cb linked s) (hd : System.DistinctIds s) {c t t' : Nat}
    {k k' : Endpoint.Task CB} (hl : linked c = true) (hk : s.b.tasks t = some k) (hk' : s.b.tasks t' = some k') (hc : k.conn = c)
    (hc' : k'.conn = c) (hid : k.event.id = k'.event.id) : t = t' := by
  have hre := Lossy.reachable_right h
  have hmem : ∀ t k, s.b.tasks t = some k → k.conn = c →
      ({ conn := c, event := k.event, dest := .handler t } : Entry) ∈ s.b.processed.filter fun x => decide (x.conn = c) := by
    intro t k hk hc
    have h1 := taskEntries_eq hre t
    rw [hk] at h1
    have hm : ({ conn := k.conn, event := k.event, dest := .handler t } : Entry) ∈ taskEntries s.b t := by
      rw [h1]; simp [taskEntry]
    rw [hc] at hm
    simp [(List.mem_filter.1 hm).1]
  have hnd : ((s.b.processed.filter fun x => decide (x.conn = c)).map fun x => x.event.id).Nodup := by
    have h1 : (handledOn s.b c).Sublist <| (s.a.out c).map (·.event) := by
      refine List.Sublist.trans ?_ ((Lossy.carries h).2 c hl)
      rw [arrInv hre, List.append_assoc]
      exact (List.prefix_append _ _).sublist
    have h2 := (h1.map (·.id))
    have h3 := out_ids_nodup (unique (Lossy.reachable_left h) hd.left) c
    rw [List.map_map] at h2
    have := h3.sublist h2
    rw [handledOn, List.map_map] at this
    exact this
  have := List.inj_on_of_nodup_map hnd (hmem t k hk hc) (hmem t' k' hk' hc') hid
  simp at this
  exact this.2

/-- **C78.** Also over connections that lose events: everything a request has received was emitted by the one handler
task of the other side that handled the event of this very request, in the order in which that task emitted it, none of
it twice; and of what arrived from that task the request has missed nothing up to what it received last. -/
theorem C78_end_to_end {s : System.Sys CA CB} (h : Lossy.Reachable ca cb linked s) (hd : System.DistinctIds s)
    (hf : FreshIds ca s.a) {r : Nat} {q : Req} (hq : s.a.reqs r = some q)
    (hl : ∀ c, ca.group c = ca.group q.conn → linked c = true) (hp : q.popped ≠ []) :
    ∃ t k, s.b.tasks t = some k ∧ k.event = q.event ∧ k.conn = q.conn ∧ q.popped.Sublist (answersOf s.b q.conn t) ∧
      q.popped <+: (s.a.arrived q.conn).filter (fun e => decide (e.referenceId = some q.event.id)) ∧
      ∀ t' k', s.b.tasks t' = some k' → k'.event = q.event → k'.conn = q.conn → t' = t := by
  have hra := Lossy.reachable_left h
  have hrb := Lossy.reachable_right h
  have hu := unique hra hd.left
  -- every event on a connection of the listener map that refers to the request comes from a task for it
  have src : ∀ c e, ca.group c = ca.group q.conn → e ∈ s.a.arrived c → e.referenceId = some q.event.id →
      c = q.conn ∧ ∃ t k, s.b.tasks t = some k ∧ k.conn = q.conn ∧ k.event = q.event := by
    intro c e hg he hid
    obtain ⟨y, hy, hye, t, k, h1, h2, h3, h4, x, hx, hxe⟩ := Lossy.reply_source h (hl c hg) he hid
    obtain ⟨h5, h6⟩ := hu.own r q hq c x hx (by rw [hxe, h3])
    subst h5
    refine ⟨rfl, t, k, h1, h2, ?_⟩
    rw [← hxe, h6]
  obtain ⟨e0, he0⟩ := List.exists_mem_of_ne_nil _ hp
  obtain ⟨hr0, c0, hg0, ha0⟩ := C20_correlated hra hq e0 he0
  obtain ⟨hc0, t, k, hk, hkc, hke⟩ := src c0 e0 hg0 ha0 hr0
  have hlc : linked q.conn = true := hl _ rfl
  have huniq : ∀ t' k', s.b.tasks t' = some k' → k'.event.id = q.event.id → k'.conn = q.conn → t' = t := by
    intro t' k' h1 h2 h3
    exact lossy_one_task h hd hlc h1 hk h3 hkc (by rw [h2, hke])
  have hpre := C22_prefix hra hf hq
  have e1 : (s.a.processed.drop q.regAt).filter (answers ca q) = s.a.processed.filter (answers ca q) := by
    conv => rhs; rw [← List.take_append_drop q.regAt s.a.processed, List.filter_append]
    have : (s.a.processed.take q.regAt).filter (answers ca q) = [] := by
      rw [List.filter_eq_nil_iff]
      intro x hx
      simp [lossy_no_early_reply h hd r q hq hl x hx]
    rw [this, List.nil_append]
  have e2 : s.a.processed.filter (answers ca q) =
      (s.a.processed.filter fun x => decide (x.conn = q.conn)).filter
        (fun x => decide (x.event.referenceId = some q.event.id)) := by
    rw [List.filter_filter]
    apply List.filter_congr
    intro x hx
    have harr : x.event ∈ s.a.arrived x.conn := by rw [arrInv hra]; simp [handled_mem hx]
    by_cases hid : x.event.referenceId = some q.event.id
    · by_cases hg : ca.group x.conn = ca.group q.conn
      · simp [answers, hid, (src _ _ hg harr hid).1]
      · have : x.conn ≠ q.conn := fun hh => hg (by rw [hh])
        simp [answers, hid, hg, this]
    · simp [answers, hid]
  have e3 : (((s.a.processed.filter fun x => decide (x.conn = q.conn)).filter
        (fun x => decide (x.event.referenceId = some q.event.id))).map (·.event)) =
      (handledOn s.a q.conn).filter (fun e => decide (e.referenceId = some q.event.id)) := by
    rw [handledOn, List.filter_map]; rfl
  rw [e1, e2, e3] at hpre
  have p0 : handledOn s.a q.conn <+: s.a.arrived q.conn := by
    rw [arrInv hra, List.append_assoc]
    exact List.prefix_append _ _
  refine ⟨t, k, hk, hke, hkc, ?_, hpre.trans (p0.filter _), fun t' k' h1 h2 h3 => huniq t' k' h1 (by rw [h2]) h3⟩
  refine (hpre.trans (p0.filter _)).sublist.trans ((((Lossy.carries h).1 q.conn hlc).filter _).trans ?_)
  rw [List.filter_map, answersOf]
  have : (s.b.out q.conn).filter ((fun e => decide (e.referenceId = some q.event.id)) ∘ (·.event)) =
      (s.b.out q.conn).filter fun y => decide (y.origin = .task t ∨ y.origin = .final t) := by
    apply List.filter_congr
    intro y hy
    have ho := (outInv hrb).out q.conn y hy
    simp only [Function.comp, decide_eq_decide]
    rcases hyo : y.origin with _ | t' | t'
    · rw [hyo] at ho; simp [ho.1]
    · rw [hyo] at ho
      obtain ⟨k', h1, h2, h3, h4, h5⟩ := ho
      simp only [h4, Option.some.injEq, Origin.task.injEq, reduceCtorEq, or_false]
      constructor
      · intro hid; exact huniq t' k' h1 hid h2
      · rintro rfl; rw [hk] at h1; cases h1; rw [hke]
    · rw [hyo] at ho
      obtain ⟨k', res, i, h1, h2, h3, h4⟩ := ho
      rw [h3, finalEvent_ref]
      simp only [Option.some.injEq, Origin.final.injEq, reduceCtorEq, false_or]
      constructor
      · intro hid; exact huniq t' k' h1 hid h2
      · rintro rfl; rw [hk] at h1; cases h1; rw [hke]
  rw [this]

/-- **C78: the End or Error event that a request receives is the answer made from the result of its handler.** -/
theorem C78_final_result {s : System.Sys CA CB} (h : Lossy.Reachable ca cb linked s) (hd : System.DistinctIds s)
    (hf : FreshIds ca s.a) {r : Nat} {q : Req} (hq : s.a.reqs r = some q)
    (hl : ∀ c, ca.group c = ca.group q.conn → linked c = true) {e : Event} (he : e ∈ q.popped)
    (hty : e.eventType = .end ∨ e.eventType = .error) :
    ∃ t k res, s.b.tasks t = some k ∧ k.event = q.event ∧ k.conn = q.conn ∧ IsAnswer cb.fmtDebug q.event res e ∧
      (k.phase = .cleaning res true ∨ k.phase = .done res true) := by
  obtain ⟨t, k, h1, h2, h3, h4, _, _⟩ := C78_end_to_end h hd hf hq hl (List.ne_nil_of_mem he)
  have hm := h4.subset he
  simp only [answersOf, List.mem_map, List.mem_filter, decide_eq_true_eq] at hm
  obtain ⟨y, ⟨hy, hyo⟩, rfl⟩ := hm
  have ho := (outInv (Lossy.reachable_right h)).out q.conn y hy
  rcases hyo with hyo | hyo
  · rw [hyo] at ho
    obtain ⟨k', g1, g2, g3, g4, g5⟩ := ho
    rw [g5] at hty
    simp at hty
  · rw [hyo] at ho
    obtain ⟨k', res, i, g1, g2, g3, g4⟩ := ho
    rw [h1] at g1
    cases g1
    refine ⟨t, k, res, h1, h2, h3, ?_, g4⟩
    rw [g3, ← h2]
    exact finalEvent_isAnswer k res i

/-- **C78, C29.** Between two endpoints with different ids, over connections that lose events, an End event is only ever handled (rather than received by a
request, or dropped) if the event it answers is an Initiator or a Response. So an answer to an End or Error event is
never answered again. -/
theorem C78_no_ping_pong {s : System.Sys CA CB} (h : Lossy.Reachable ca cb linked s) (hd : System.DistinctIds s)
    {t : Nat} {k : Endpoint.Task CB} (hk : s.b.tasks t = some k)
    (hl : ∀ c, cb.group c = cb.group k.conn → linked c = true) (hty : k.event.eventType = .end) :
    ∃ t' k', s.a.tasks t' = some k' ∧ k.event.referenceId = some k'.event.id ∧
      (k'.event.eventType = .initiator ∨ k'.event.eventType = .response) := by
  have hrb := Lossy.reachable_right h
  have hra := Lossy.reachable_left h
  obtain ⟨r, q, hq, _, href, hg⟩ := C29_end_unanswered hrb hk hty
  obtain ⟨hin, _⟩ := Lossy.task_event h hk (hl _ rfl)
  obtain ⟨y, hy, hye, t', k', h1, h2, h3, h4, x, hx, hxe⟩ :=
    Lossy.reply_source (Lossy.reachable_swap h) (c := k.conn) (hl _ rfl) hin href
  refine ⟨t', k', h1, by rw [href, h3], ?_⟩
  -- the event answered is the event of the request `q`
  have hx' : x ∈ s.b.out k.conn := hx
  obtain ⟨_, h6⟩ := (unique hrb hd.right).own r q hq k.conn x hx' (by rw [hxe, h3])
  have ho := (outInv hrb).req r q hq
  rw [← hxe, h6]
  rcases hqo : q.origin with _ | t2 | t2
  · rw [hqo] at ho; exact .inl ho.1.2
  · rw [hqo] at ho
    obtain ⟨k2, _, _, _, _, g5⟩ := ho.1
    exact .inr g5
  · exact absurd hqo (ho.2 t2)

/-- **C78, C47.** Over connections that lose events: if the first endpoint handles an error event with its default error handler, then all that it emits for
it is one End event without payload, and no handler of the other side ever handles that End event: the exchange is
over. -/
theorem C78_error_exchange_ends {s : System.Sys CA CB} (h : Lossy.Reachable ca cb linked s) (hd : System.DistinctIds s)
    (hl : ∀ c, linked c = true) {t : Nat} {k : Endpoint.Task CA} (hk : s.a.tasks t = some k)
    (hty : k.event.eventType = .error) {f : CA} (hcb : k.cb = some f) (hdef : ca.isDefaultError f = true)
    {d : ErrorEventData} (hpay : k.event.payload errorPayload = .ok d) :
    (∀ c, ∀ y ∈ s.a.out c, y.event.referenceId = some k.event.id → c = k.conn →
      y.origin = .final t ∧ y.event.eventType = .end ∧ y.event.dataRaw = []) ∧
    ∀ t' k', s.b.tasks t' = some k' → k'.event.referenceId = some k.event.id → k'.event.eventType ≠ .end := by
  have hra := Lossy.reachable_left h
  have hsw := Lossy.reachable_swap h
  constructor
  · rintro c y hy href rfl
    have ho := (outInv hra).out _ y hy
    rcases hyo : y.origin with _ | t2 | t2
    · rw [hyo] at ho; rw [ho.1] at href; cases href
    · rw [hyo] at ho
      obtain ⟨k2, g1, g2, g3, g4, g5⟩ := ho
      rw [g4] at href
      have : t = t2 := lossy_one_task hsw hd.swap (hl _) hk g1 rfl g2 (Option.some.inj href).symm
      subst this
      rw [hk] at g1
      cases g1
      simp [userCallback, hcb, hdef] at g3
    · rw [hyo] at ho
      obtain ⟨k2, res, i, g1, g2, g3, g4⟩ := ho
      have hri := href
      rw [g3, finalEvent_ref] at hri
      have : t = t2 := lossy_one_task hsw hd.swap (hl _) hk g1 rfl g2 (Option.some.inj hri).symm
      subst this
      rw [hk] at g1
      cases g1
      have hr := task_result hra t k hk res (by rcases g4 with g4 | g4 <;> simp [g4])
      have hans := finalEvent_isAnswer (cfg := ca) k res i
      rw [← g3] at hans
      cases res with
      | error x => simp [resultPossible, hcb, hdef, hpay] at hr
      | ok b =>
        simp only [resultPossible, hcb, hdef, hpay, if_true, decide_eq_true_eq] at hr
        subst hr
        exact ⟨rfl, hans.2.2.1, hans.2.2.2.2⟩
  · intro t' k' hk' href hend
    obtain ⟨t2, k2, h1, h2, h3⟩ := C78_no_ping_pong h hd hk' (fun c _ => hl c) hend
    rw [href] at h2
    have hid := Option.some.inj h2
    -- `k` and `k2` handle events with the same id, so it is the same event
    obtain ⟨_, x, hx, hxe⟩ := Lossy.task_event hsw (t := t) (k := k) hk (hl _)
    obtain ⟨_, y, hy, hye⟩ := Lossy.task_event hsw (t := t2) (k := k2) h1 (hl _)
    obtain ⟨i, hi⟩ := List.getElem?_of_mem hx
    obtain ⟨j, hj⟩ := List.getElem?_of_mem hy
    obtain ⟨hc, hij⟩ := (unique (Lossy.reachable_right h) hd.right).out k.conn k2.conn i j x y hi hj
      (by rw [hxe, hye, hid])
    have hi' : (s.b.out k.conn)[i]? = some x := hi
    have hj' : (s.b.out k2.conn)[j]? = some y := hj
    rw [hc, hij, hj'] at hi'
    have : y = x := Option.some.inj hi'
    rw [← hye, this, hxe, hty] at h3
    simp at h3

end

/-! ### Concrete cases -/

/-- The handler of a request emits an event, which is lost, and answers: the answer is the first event that arrives. -/
def actsLost : List Lossy.Act := [.left (.request 0 (.conn 0) .single none "ping" [1] 7),
    .left (.sent 0), .toRight 0 0, .right (.take 0 3), .right (.emit (.task 3) none "a" [5] 101),
    .right (.handlerDone 3 (.ok [6])), .right (.respond 3 102), .right (.cleanup 3), .toLeft 0 1, .left (.take 0 0),
    .left (.deliver 0 0), .left (.recv 0), .left (.finish 0)]

/-- **C78: loss shows.** The hypotheses of C78 can be met, and `await_reply` may then return a later event of the
handler than the first (compare `C46_await_reply`). -/
theorem C78_reply_not_first : ∃ (s : System.Sys Nat Nat) (q : Req) (k : Endpoint.Task Nat),
    Lossy.Reachable demo demo (fun _ => true) s ∧ System.DistinctIds s ∧ FreshIds demo s.a ∧ s.a.reqs 0 = some q ∧
    s.b.tasks 3 = some k ∧ k.event = q.event ∧
    q.popped = [Event.new 102 none "end" [6] (some 7) .end] ∧
    answersOf s.b 0 3 = [Event.new 101 none "a" [5] (some 7) .response, Event.new 102 none "end" [6] (some 7) .end] := by
  obtain ⟨s, hs⟩ : ∃ s, Lossy.acts demo demo (fun _ => true) {} actsLost = some s := ⟨_, rfl⟩
  have hre : Lossy.Reachable demo demo (fun _ => true) s := Lossy.reachable_acts .init hs
  have hcr : s.a.created = [7] ∧ s.b.created = [101, 102] := by cases hs; exact ⟨rfl, rfl⟩
  have hd : System.DistinctIds s := by
    show (s.a.created ++ s.b.created).Nodup
    rw [hcr.1, hcr.2]; decide +kernel
  have hf := Lossy.freshIds hre hd (fun _ => rfl)
  cases hs
  exact ⟨_, _, _, hre, hd, hf, rfl, rfl, by decide +kernel, by decide +kernel, by decide +kernel⟩

/-! ### Down to the bytes -/

/-- **C78, one direction of a connection.** Whatever emits are dropped on an encrypted connection, or on one with any number of encrypted layers, at whatever points, and whatever the other
emitters, the transport and the receiver do, in any order: the receiver reads only events that were emitted, in this order, each at most once and
unaltered. A connection on which no emit is dropped that holds it does so too (and loses nothing, C57). -/
theorem C78_loses_at_most (k : Link.DropKind) (checks : Bool) : (k.link checks).LosesAtMost k.carries := by
  cases k with
  | kept k => exact fun s em rd h hg => (C57_faithful k checks s em rd h hg).sublist
  | dropping A key log => exact Link.drops_losesAtMost A key log checks
  | droppingLayers A l ls => exact Layers.layeredDrops_losesAtMost A l ls checks

section
variable {CA CB : Type} {ca : Config CA} {cb : Config CB} {linked : Nat → Bool} {kR kL : Nat → Link.DropKind} {checks : Bool}

/-- Every event written on a linked connection can be carried by it. -/
abbrev DropCarried (linked : Nat → Bool) (kR kL : Nat → Link.DropKind)
    (s : Stack.St CA CB (fun c => (kR c).link checks) (fun c => (kL c).link checks)) : Prop :=
  ∀ c, linked c = true → (∀ x ∈ s.sys.a.out c, (kR c).carries x.event) ∧ (∀ x ∈ s.sys.b.out c, (kL c).carries x.event)

/-- **C78, refinement.** What two endpoints can get to see over connections on which emits are dropped, down to the bytes, is what they can get
to see over connections that lose events and do nothing worse. -/
theorem C78_refines {s : Stack.St CA CB (fun c => (kR c).link checks) (fun c => (kL c).link checks)}
    (h : Stack.Reachable ca cb linked (fun c => (kR c).link checks) (fun c => (kL c).link checks) s) (hc : DropCarried linked kR kL s) :
    Lossy.Reachable ca cb linked s.sys :=
  Stack.refines_lossy (carR := fun c => (kR c).carries) (carL := fun c => (kL c).carries) (fun c _ => C78_loses_at_most (kR c) checks)
    (fun c _ => C78_loses_at_most (kL c) checks) h hc

/-- **C78, end to end over the bytes.** -/
theorem C78_end_to_end_bytes {s : Stack.St CA CB (fun c => (kR c).link checks) (fun c => (kL c).link checks)}
    (h : Stack.Reachable ca cb linked (fun c => (kR c).link checks) (fun c => (kL c).link checks) s) (hc : DropCarried linked kR kL s)
    (hd : System.DistinctIds s.sys) (hf : FreshIds ca s.sys.a) {r : Nat} {q : Req} (hq : s.sys.a.reqs r = some q)
    (hl : ∀ c, ca.group c = ca.group q.conn → linked c = true) (hp : q.popped ≠ []) :
    ∃ t k, s.sys.b.tasks t = some k ∧ k.event = q.event ∧ k.conn = q.conn ∧ q.popped.Sublist (answersOf s.sys.b q.conn t) ∧
      q.popped <+: (s.sys.a.arrived q.conn).filter (fun e => decide (e.referenceId = some q.event.id)) ∧
      ∀ t' k', s.sys.b.tasks t' = some k' → k'.event = q.event → k'.conn = q.conn → t' = t :=
  C78_end_to_end (C78_refines h hc) hd hf hq hl hp

/-- **C78, the answer over the bytes.** -/
theorem C78_final_result_bytes {s : Stack.St CA CB (fun c => (kR c).link checks) (fun c => (kL c).link checks)}
    (h : Stack.Reachable ca cb linked (fun c => (kR c).link checks) (fun c => (kL c).link checks) s) (hc : DropCarried linked kR kL s)
    (hd : System.DistinctIds s.sys) (hf : FreshIds ca s.sys.a) {r : Nat} {q : Req} (hq : s.sys.a.reqs r = some q)
    (hl : ∀ c, ca.group c = ca.group q.conn → linked c = true) {e : Event} (he : e ∈ q.popped)
    (hty : e.eventType = .end ∨ e.eventType = .error) :
    ∃ t k res, s.sys.b.tasks t = some k ∧ k.event = q.event ∧ k.conn = q.conn ∧ IsAnswer cb.fmtDebug q.event res e ∧
      (k.phase = .cleaning res true ∨ k.phase = .done res true) :=
  C78_final_result (C78_refines h hc) hd hf hq hl he hty

end

/-- All connections are encrypted, with emits that are dropped. -/
def dropKind : Nat → Link.DropKind := fun _ => .dropping toyAead [5]

/-- The handler emits an event and drops the emit while the transport is busy; the answer stays in the buffer although its emit returns `Ok`,
and goes out in one package with a later event. -/
def opsDropped : List (Stack.Op (fun c => (dropKind c).link true) (fun c => (dropKind c).link true)) := [
  .left (.request 0 (.conn 0) .stream none "ping" [1] 7), .left (.sent 0), .linkR 0 (.poll [.ready 1000, .ready 1]), .linkR 0 (.deliver 51),
  .readR 0, .right (.take 0 3), .right (.emit (.task 3) none "a" [5] 101), .linkL 0 (.poll [.ready 20, .pending]), .linkL 0 .drop,
  .right (.handlerDone 3 (.ok [6])), .right (.respond 3 102), .linkL 0 (.poll [.ready 1000, .ready 1]),
  .right (.emit (.conn 0) none "x" [] 103), .linkL 0 (.poll [.ready 1000, .ready 1]), .linkL 0 (.deliver 143),
  .readL 0, .left (.take 0 0), .left (.deliver 0 0), .left (.recv 0), .readL 0, .left (.take 0 0), .left (.deliver 0 0), .left (.recv 0)]

/-- The hypotheses of C78 can be met down to the bytes, with a dropped emit: both events arrive, the second together with a later one. -/
example : ∃ (s : Stack.St Nat Nat (fun c => (dropKind c).link true) (fun c => (dropKind c).link true)) (q : Req),
    Stack.Reachable demo demo (fun c => c == 0) (fun c => (dropKind c).link true) (fun c => (dropKind c).link true) s ∧
    DropCarried (fun c => c == 0) dropKind dropKind s ∧ System.DistinctIds s.sys ∧ FreshIds demo s.sys.a ∧ s.sys.a.reqs 0 = some q ∧
    (∀ c, demo.group c = demo.group q.conn → (c == 0) = true) ∧
    q.popped = [Event.new 101 none "a" [5] (some 7) .response, Event.new 102 none "end" [6] (some 7) .end] := by
  obtain ⟨s, hs, hq, hn, hoa, hob, hpr⟩ : ∃ s, Stack.run demo demo (fun c => c == 0) (fun c => (dropKind c).link true)
      (fun c => (dropKind c).link true) (Stack.init _ _) opsDropped = some s ∧
      (s.sys.a.reqs 0).map (fun q => (q.conn, q.popped)) =
        some (0, [Event.new 101 none "a" [5] (some 7) .response, Event.new 102 none "end" [6] (some 7) .end]) ∧
      (s.sys.a.created ++ s.sys.b.created).Nodup ∧
      (∀ x ∈ s.sys.a.out 0, Fits x.event ∧ frameSize x.event + 1024 + 16 < 2 ^ 32) ∧
      (∀ x ∈ s.sys.b.out 0, Fits x.event ∧ frameSize x.event + 1024 + 16 < 2 ^ 32) ∧
      s.sys.a.processed.map (·.dest) = [.reply 0, .reply 0] := by
    apply witness
    have : ((Stack.run demo demo (fun c => c == 0) (fun c => (dropKind c).link true)
      (fun c => (dropKind c).link true) (Stack.init _ _) opsDropped).map fun s =>
        decide ((s.sys.a.reqs 0).map (fun q => (q.conn, q.popped)) =
        some (0, [Event.new 101 none "a" [5] (some 7) .response, Event.new 102 none "end" [6] (some 7) .end]) ∧
      (s.sys.a.created ++ s.sys.b.created).Nodup ∧
      (∀ x ∈ s.sys.a.out 0, Fits x.event ∧ frameSize x.event + 1024 + 16 < 2 ^ 32) ∧
      (∀ x ∈ s.sys.b.out 0, Fits x.event ∧ frameSize x.event + 1024 + 16 < 2 ^ 32) ∧
      s.sys.a.processed.map (·.dest) = [.reply 0, .reply 0])) = some true := by decide +kernel
    revert this
    cases Stack.run demo demo (fun c => c == 0) (fun c => (dropKind c).link true) (fun c => (dropKind c).link true) (Stack.init _ _) opsDropped with
    | none => intro h; cases h
    | some s => intro h; simp only [Option.map_some, Option.some.injEq, decide_eq_true_eq] at h; exact h
  have hre : Stack.Reachable demo demo (fun c => c == 0) (fun c => (dropKind c).link true) (fun c => (dropKind c).link true) s := ⟨_, hs⟩
  have hca : DropCarried (fun c => c == 0) dropKind dropKind s := by
    intro c hc
    have : c = 0 := by simpa using hc
    subst this
    exact ⟨hoa, hob⟩
  have hl := C78_refines hre hca
  have htasks : ∀ t k, s.sys.a.tasks t = some k → False := by
    intro t k hk
    have h1 := taskEntries_eq (Lossy.reachable_left hl) t
    rw [hk] at h1
    have hm : ({ conn := k.conn, event := k.event, dest := .handler t } : Entry) ∈ s.sys.a.processed := by
      have : ({ conn := k.conn, event := k.event, dest := .handler t } : Entry) ∈ taskEntries s.sys.a t := by rw [h1]; simp [taskEntry]
      exact (List.mem_filter.1 this).1
    have : Dest.handler t ∈ s.sys.a.processed.map (·.dest) := List.mem_map.2 ⟨_, hm, rfl⟩
    rw [hpr] at this
    simp at this
  obtain ⟨q, hq1, hq2⟩ := Option.map_eq_some_iff.1 hq
  simp only [Prod.mk.injEq] at hq2
  refine ⟨s, q, hre, hca, hn, Lossy.freshIds' hl hn (fun t k hk => (htasks t k hk).elim), hq1, fun c hc => ?_, hq2.2⟩
  rw [hq2.1] at hc
  have : c = 0 := by simpa [demo] using hc
  simp [this]

end Bromine.Props
