import Verif.Spec.OneWay
import Verif.Props.Stack
import Verif.Props.FairStack
import Verif.Props.Lossy
/-
C96: events that are emitted without waiting for a reply start the handlers of the other side exactly once, in order.
-/
namespace Bromine.Props
open Endpoint Spec

section
variable {CA CB : Type} {ca : Config CA} {cb : Config CB} {linked : Nat → Bool}

/-- The handlers started on a connection for unprompted events are those of the unprompted events dealt with. -/
theorem started_unprompted {s : State CB} (h : Reachable cb s) (c : Nat) :
    ((startedOn s c).filterMap (eventOf s)).filter unprompted = (handledOn s c).filter unprompted := by
  have key : ∀ l : List Entry, (∀ x ∈ l, x ∈ s.processed) →
      (((l.filter fun x => decide (x.conn = c)).filterMap fun x => match x.dest with | .handler t => some t | _ => none).filterMap (eventOf s)).filter unprompted =
      ((l.filter fun x => decide (x.conn = c)).map (·.event)).filter unprompted := by
    intro l
    induction l with
    | nil => intro _; rfl
    | cons x l ih =>
      intro hl
      have ih := ih fun y hy => hl y (List.mem_cons_of_mem _ hy)
      by_cases hc : x.conn = c
      · rw [List.filter_cons_of_pos (by simpa using hc)]
        rcases (C28_exactly_once h).1 x (hl x List.mem_cons_self) with ⟨r, q, h1, h2, h3⟩ | ⟨t, k, h1, h2, h3, h4⟩ | ⟨h1, h2⟩
        · have hu : unprompted x.event = false := by
            simp only [answers, Bool.and_eq_true, decide_eq_true_eq] at h3
            simp [unprompted, h3.1]
          simp only [List.filterMap_cons, h1, List.map_cons]
          rw [List.filter_cons_of_neg (by simp [hu])]
          exact ih
        · simp only [List.filterMap_cons, h1, List.map_cons, eventOf, h2, Option.map_some, h3, List.filter_cons]
          rw [ih]
        · have hu : unprompted x.event = false := by simp [unprompted, h2]
          simp only [List.filterMap_cons, h1, List.map_cons]
          rw [List.filter_cons_of_neg (by simp [hu])]
          exact ih
      · rw [List.filter_cons_of_neg (by simpa using hc)]
        exact ih
  exact key s.processed fun _ h => h

/-- **C96: exactly once, in order.** Two endpoints joined by any number of connections, whatever they do: of the events emitted by one side on a connection that refer to no other event (and
are not End events), those for which the other side has started handlers are the first ones; for each of them one handler was started, in the order in
which the events were emitted, with none left out. -/
theorem C96_in_order {s : System.Sys CA CB} (h : System.Reachable ca cb linked s) {c : Nat} (hl : linked c = true) :
    ((startedOn s.b c).filterMap (eventOf s.b)).filter unprompted <+: (emittedOn s.a c).filter unprompted := by
  rw [started_unprompted (System.reachable_right h)]
  refine List.IsPrefix.filter _ (List.IsPrefix.trans ?_ (System.fifo_right h c hl))
  rw [arrInv (System.reachable_right h), List.append_assoc]
  exact List.prefix_append _ _

/-- **C96: each handler is started once.** -/
theorem C96_once {s : System.Sys CA CB} (h : System.Reachable ca cb linked s) (c : Nat) :
    (startedOn s.b c).Nodup ∧ ∀ t, t ∈ startedOn s.b c ↔ ∃ k, s.b.tasks t = some k ∧ k.conn = c := by
  have hre := System.reachable_right h
  have hmem : ∀ t, t ∈ startedOn s.b c ↔ ∃ k, s.b.tasks t = some k ∧ k.conn = c := by
    intro t
    simp only [startedOn, List.mem_filterMap, List.mem_filter, decide_eq_true_eq]
    constructor
    · rintro ⟨x, ⟨hx, hc⟩, hd⟩
      rcases (C28_exactly_once hre).1 x hx with ⟨r, q, h1, -⟩ | ⟨t', k, h1, h2, -, h4⟩ | ⟨h1, -⟩
      · rw [h1] at hd; cases hd
      · rw [h1] at hd; cases hd; exact ⟨k, h2, h4.trans hc⟩
      · rw [h1] at hd; cases hd
    · rintro ⟨k, hk, rfl⟩
      have h1 := (C28_exactly_once hre).2.1 t k hk
      have hm : ({ conn := k.conn, event := k.event, dest := .handler t } : Entry) ∈ s.b.processed.filter fun x => decide (x.dest = .handler t) := by
        rw [h1]; exact List.mem_singleton.2 rfl
      exact ⟨_, ⟨(List.mem_filter.1 hm).1, rfl⟩, rfl⟩
  refine ⟨?_, hmem⟩
  rw [List.nodup_iff_count_le_one]
  intro t
  by_cases ht : t ∈ startedOn s.b c
  · obtain ⟨k, hk, -⟩ := (hmem t).1 ht
    have h1 := (C28_exactly_once hre).2.1 t k hk
    have hsub : (startedOn s.b c).count t ≤ (s.b.processed.filter fun x => decide (x.dest = .handler t)).length := by
      have : ∀ l : List Entry, ((l.filter fun x => decide (x.conn = c)).filterMap fun x => match x.dest with | .handler t => some t | _ => none).count t ≤
          (l.filter fun x => decide (x.dest = .handler t)).length := by
        intro l
        induction l with
        | nil => simp
        | cons x l ih =>
          by_cases hc : x.conn = c
          · rw [List.filter_cons_of_pos (by simpa using hc)]
            cases hd : x.dest with
            | handler t' =>
              by_cases htt : t' = t
              · simp [hd, htt]; exact ih
              · simp [hd, htt]; exact ih
            | reply r => simp [hd]; exact ih
            | discarded => simp [hd]; exact ih
          · rw [List.filter_cons_of_neg (by simpa using hc)]
            refine Nat.le_trans ih ?_
            rw [List.filter_cons]
            split <;> simp
      exact this s.b.processed
    rw [h1] at hsub
    exact hsub
  · rw [List.count_eq_zero_of_not_mem ht]; exact Nat.zero_le _

/-- **C96: the callback.** The handler started for an unprompted event runs the callback that is registered for its name (in its namespace if that is registered, otherwise globally). -/
theorem C96_callback {s : System.Sys CA CB} (h : System.Reachable ca cb linked s) {t : Nat} {k : Endpoint.Task CB} (hk : s.b.tasks t = some k)
    (hu : unprompted k.event = true) : k.cb = registered cb k.event := by
  rcases C27_callback (System.reachable_right h) hk with h1 | ⟨-, r, q, -, -, h2, -⟩
  · exact h1
  · simp [unprompted, h2] at hu

/-- **C96: what `emit` sends.** An event emitted on the context of a connection is unprompted; and only events emitted by handlers with their context, and final answers, are not. -/
theorem C96_emitted {s : State CA} (h : Reachable ca s) {c : Nat} {x : OutEntry} (hx : x ∈ s.out c) :
    unprompted x.event = true ↔ x.origin = .conn := by
  have h1 := (outInv h).out c x hx
  cases ho : x.origin with
  | conn => rw [ho] at h1; simp [unprompted, h1.1, h1.2]
  | task t =>
    rw [ho] at h1
    obtain ⟨k, -, -, -, h2, -⟩ := h1
    simp [unprompted, h2]
  | final t =>
    rw [ho] at h1
    obtain ⟨k, res, id, -, -, h2, -⟩ := h1
    simp [unprompted, h2, finalEvent_ref]

/-- **C96: connections are independent.** There is no such order between connections: an event emitted on one connection, after another one was emitted on another connection to the same
endpoint, may start its handler before it. -/
theorem C96_no_order_between_connections : ∃ (ops ops' : List System.Op) (mid s : System.Sys Nat Nat),
    System.run demo demo (fun _ => true) {} ops = some mid ∧ System.run demo demo (fun _ => true) mid ops' = some s ∧
    (emittedOn mid.a 0).map (·.id) = [1] ∧ emittedOn mid.a 1 = [] ∧ (emittedOn s.a 1).map (·.id) = [2] ∧
    s.b.processed.map (fun x => (x.conn, x.event.id, x.dest)) = [(1, 2, .handler 0), (0, 1, .handler 1)] := by
  refine ⟨[.left (.emit (.conn 0) none "ping" [] 1)], [.left (.emit (.conn 1) none "ping" [] 2), .toRight 1, .right (.take 1 0), .toRight 0, .right (.take 0 1)],
    _, _, rfl, rfl, ?_⟩
  decide +kernel

/-- Two unprompted events, and the reply of a handler between them: the handlers of both have been started. -/
example : ∃ s, System.run demo demo (fun _ => true) {} [.right (.emit (.conn 0) none "ping" [] 9), .left (.emit (.conn 0) none "ping" [] 1), .toLeft 0, .left (.take 0 0),
      .left (.emit (.task 0) none "x" [] 2), .left (.emit (.conn 0) (some "ns") "ping" [] 3), .toRight 0, .toRight 0, .toRight 0,
      .right (.take 0 5), .right (.take 0 6), .right (.take 0 7)] = some s ∧
    ((startedOn s.b 0).filterMap (eventOf s.b)).map (·.id) = [1, 2, 3] ∧
    (((startedOn s.b 0).filterMap (eventOf s.b)).filter unprompted).map (·.id) = [1, 3] ∧ ((emittedOn s.a 0).filter unprompted).map (·.id) = [1, 3] := by
  refine ⟨_, rfl, ?_⟩
  decide +kernel

end

section
variable {CA CB : Type} {ca : Config CA} {cb : Config CB} {linked : Nat → Bool} {kR kL : Nat → Link.Kind} {checks : Bool}

/-- **C96, over the bytes.** The same for two endpoints joined by plain and encrypted connections (in any number of layers), however the bytes are written, cut, delayed and delivered. -/
theorem C96_over_bytes {s : Stack.St CA CB (fun c => (kR c).link checks) (fun c => (kL c).link checks)}
    (h : StackReachable ca cb linked kR kL checks s) (hc : AllCarried linked kR kL s) {c : Nat} (hl : linked c = true) :
    ((startedOn s.sys.b c).filterMap (eventOf s.sys.b)).filter unprompted <+: (emittedOn s.sys.a c).filter unprompted :=
  C96_in_order (C57_refines h hc) hl

/-- **C96, nothing is left out for ever.** If the emitters, the transport, the receive loops and the handlers are scheduled fairly, then for every unprompted event that is emitted a handler is
started on the other side, unless that side stops reading the connection. -/
theorem C96_eventually {σ : Nat → Stack.St CA CB (fun c => (kR c).link checks) (fun c => (kL c).link checks)}
    {op : Nat → Option (Stack.Op (fun c => (kR c).link checks) (fun c => (kL c).link checks))}
    (F : FairStack ca cb linked kR kL checks σ op) (hc : ∀ m, AllCarried linked kR kL (σ m)) {c : Nat} (hl : linked c = true)
    {n : Nat} {e : Event} (he : e ∈ emittedOn (σ n).sys.a c) (hu : unprompted e = true) :
    ∃ m, n ≤ m ∧ (¬ Receiving (σ m).sys.b c ∨ ∃ t ∈ startedOn (σ m).sys.b c, eventOf (σ m).sys.b t = some e) := by
  obtain ⟨x, hx, rfl⟩ := List.mem_map.1 he
  obtain ⟨i, hi⟩ := List.mem_iff_getElem?.1 hx
  simp only [unprompted, decide_eq_true_eq] at hu
  obtain ⟨m, hm, h1 | ⟨-, h2 | ⟨r, q, -, h3, -⟩ | ⟨t, k, h4, h5, h6, -⟩⟩⟩ := C71_emitted_event_is_served F hc hl hi
  · exact ⟨m, hm, .inl h1⟩
  · exact absurd h2 hu.2
  · rw [hu.1] at h3; cases h3
  · have hre : System.Reachable ca cb linked (σ m).sys := System.exec_reach (C71_refines F hc).run m
    exact ⟨m, hm, .inr ⟨t, ((C96_once hre c).2 t).2 ⟨k, h4, h6⟩, by simp [eventOf, h4, h5]⟩⟩

end

section
variable {CA CB : Type} {ca : Config CA} {cb : Config CB} {linked : Nat → Bool}

/-- **C96, with loss.** Over connections that lose events (C78): the unprompted events for which handlers are started are some of those emitted, in the order of emission, for each at most one handler. -/
theorem C96_lossy {s : System.Sys CA CB} (h : Lossy.Reachable ca cb linked s) {c : Nat} (hl : linked c = true) :
    (((startedOn s.b c).filterMap (eventOf s.b)).filter unprompted).Sublist ((emittedOn s.a c).filter unprompted) := by
  rw [started_unprompted (Lossy.reachable_right h)]
  refine List.Sublist.filter _ (List.Sublist.trans ?_ ((Lossy.carries h).2 c hl))
  rw [arrInv (Lossy.reachable_right h), List.append_assoc]
  exact List.sublist_append_left _ _

/-- **C96, with dropped emits, over the bytes.** The same down to the bytes, on connections with any number of encrypted layers on which emits are dropped at any point (and others on which none is dropped that holds the connection). -/
theorem C96_dropped_over_bytes {kR kL : Nat → Link.DropKind} {checks : Bool} {s : Stack.St CA CB (fun c => (kR c).link checks) (fun c => (kL c).link checks)}
    (h : Stack.Reachable ca cb linked (fun c => (kR c).link checks) (fun c => (kL c).link checks) s) (hc : DropCarried linked kR kL s) {c : Nat} (hl : linked c = true) :
    (((startedOn s.sys.b c).filterMap (eventOf s.sys.b)).filter unprompted).Sublist ((emittedOn s.sys.a c).filter unprompted) :=
  C96_lossy (C78_refines h hc) hl

end
end Bromine.Props
