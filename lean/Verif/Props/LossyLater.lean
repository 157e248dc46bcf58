import Verif.Lemmas.LossyLater
import Verif.Props.Lossy
import Verif.Props.Dispatch
/-
C78: what is lost stays lost, and what becomes of the requests.
-/
namespace Bromine.Props
open Endpoint Spec

section
variable {CA CB : Type} {ca : Config CA} {cb : Config CB} {linked : Nat → Bool}

theorem lossy_sent_nodup {s : System.Sys CA CB} (h : Lossy.Reachable ca cb linked s) (hd : System.DistinctIds s) (c : Nat) : ((s.a.out c).map (·.event)).Nodup := by
  have := out_ids_nodup (unique (Lossy.reachable_left h) hd.left) c
  refine List.Nodup.of_map (·.id) ?_
  rw [List.map_map]
  exact this

/-- **C78: what is lost stays lost.** If an event has not arrived on a connection while one that was emitted after it has, it never arrives. -/
theorem C78_lost_forever {s s' : System.Sys CA CB} (h : Lossy.Reachable ca cb linked s) (hl : Lossy.Later ca cb linked s s') (hd : System.DistinctIds s') {c : Nat} (hc : linked c = true) {e : Event} :
    (Lost ((s.a.out c).map (·.event)) (s.b.arrived c) e → e ∉ s'.b.arrived c) ∧ (Lost ((s.b.out c).map (·.event)) (s.a.arrived c) e → e ∉ s'.a.arrived c) := by
  have h' := hl.reachable h
  constructor
  · intro hlost
    exact Lossy.lost_forever hlost ((hl.ext.1.out c).map _) (hl.ext.2.arrived c) ((Lossy.carries h').2 c hc) (lossy_sent_nodup h' hd c)
  · intro hlost
    exact Lossy.lost_forever hlost ((hl.ext.2.out c).map _) (hl.ext.1.arrived c) ((Lossy.carries h').1 c hc) (lossy_sent_nodup (Lossy.reachable_swap h') hd.swap c)

/-- **C78: a lost request.** A request whose event is lost never gets a reply: it waits until its timeout fires or it is dropped. -/
theorem C78_lost_request {s s' : System.Sys CA CB} (h : Lossy.Reachable ca cb linked s) (hlater : Lossy.Later ca cb linked s s') (hd : System.DistinctIds s') (hf : FreshIds ca s'.a)
    {r : Nat} {q q' : Req} (hq : s.a.reqs r = some q) (hp : q.phase = .waiting) (hl : ∀ c, ca.group c = ca.group q.conn → linked c = true)
    (hlost : Lost ((s.a.out q.conn).map (·.event)) (s.b.arrived q.conn) q.event) (hq' : s'.a.reqs r = some q') :
    q'.popped = [] ∧ (q'.phase = .waiting ∨ q'.phase = .finished .timeout ∨ q'.phase = .finished .dropped) := by
  have h' := hlater.reachable h
  obtain ⟨q1, g1, g2, g3, _⟩ := hlater.ext.1.reqs r q hq
  rw [hq'] at g1
  cases g1
  have hpop : q'.popped = [] := by
    refine Classical.byContradiction fun hne => ?_
    obtain ⟨t, k, k1, k2, k3, _⟩ := C78_end_to_end h' hd hf hq' (by rw [g3]; exact hl) hne
    have := (Lossy.task_event h' k1 (by rw [k3, g3]; exact hl _ rfl)).1
    rw [k2, k3, g2, g3] at this
    exact (C78_lost_forever h hlater hd (hl _ rfl)).1 hlost this
  refine ⟨hpop, ?_⟩
  have hw := hlater.waiting hq (by simp [hp]) q' hq'
  have hc := C51_never_closed (Lossy.reachable_left h') hf hq'
  have hs := (reqInv (Lossy.reachable_left h')).shape r q' hq'
  simp only [Endpoint.Shape, hpop] at hs
  revert hs hw hc
  rcases q'.phase with _ | _ | (_ | e) | (_ | _ | _ | _ | _) <;> simp

/-- **C78: a lost answer.** If the answer of the handler of a request (the End or Error event) is lost, the request never gets one, and a reply stream never ends by itself; and nothing that is lost is ever given to a request. -/
theorem C78_lost_answer {s s' : System.Sys CA CB} (h : Lossy.Reachable ca cb linked s) (hlater : Lossy.Later ca cb linked s s') (hd : System.DistinctIds s') (hf : FreshIds ca s'.a)
    {r : Nat} {q q' : Req} (hq : s.a.reqs r = some q) (hl : ∀ c, ca.group c = ca.group q.conn → linked c = true) (hq' : s'.a.reqs r = some q') :
    (∀ e, Lost ((s.b.out q.conn).map (·.event)) (s.a.arrived q.conn) e → e ∉ q'.popped) ∧
    (∀ t k, s.b.tasks t = some k → k.event = q.event → k.conn = q.conn → ∀ e, emittedBy s.b q.conn (.final t) = [e] → Lost ((s.b.out q.conn).map (·.event)) (s.a.arrived q.conn) e →
      (∀ x ∈ q'.popped, x.eventType ≠ .end ∧ x.eventType ≠ .error) ∧ (q'.kind = .stream → q'.phase ≠ .finished .replied)) := by
  have h' := hlater.reachable h
  obtain ⟨q1, g1, g2, g3, _⟩ := hlater.ext.1.reqs r q hq
  rw [hq'] at g1
  cases g1
  have first : ∀ e, Lost ((s.b.out q.conn).map (·.event)) (s.a.arrived q.conn) e → e ∉ q'.popped := by
    intro e hlost he
    obtain ⟨_, _, _, _, _, _, k4, _⟩ := C78_end_to_end h' hd hf hq' (by rw [g3]; exact hl) (List.ne_nil_of_mem he)
    have := (List.mem_filter.1 (k4.subset he)).1
    rw [g3] at this
    exact (C78_lost_forever h hlater hd (hl _ rfl)).2 hlost this
  refine ⟨first, fun t k hk hke hkc e hfin hlost => ?_⟩
  have none : ∀ x ∈ q'.popped, x.eventType ≠ .end ∧ x.eventType ≠ .error := by
    intro x hx
    obtain ⟨t', k', k1, k2, k3, k4, _, k6⟩ := C78_end_to_end h' hd hf hq' (by rw [g3]; exact hl) (List.ne_nil_of_mem hx)
    obtain ⟨k0, j1, j2, j3, j4⟩ := hlater.ext.2.tasks t k hk
    have ht := k6 t k0 j1 (by rw [j2, hke, g2]) (by rw [j3, hkc, g3])
    subst ht
    have hm := k4.subset hx
    simp only [answersOf, List.mem_map, List.mem_filter, decide_eq_true_eq] at hm
    obtain ⟨y, ⟨hy, hyo⟩, rfl⟩ := hm
    have ho := (outInv (Lossy.reachable_right h')).out _ y hy
    rcases hyo with hyo | hyo
    · rw [hyo] at ho
      obtain ⟨_, _, _, _, _, g5⟩ := ho
      rw [g5]
      simp
    · -- the answer is the one that is lost
      exfalso
      have hf1 := finals (Lossy.reachable_right h') t q'.conn
      have hmem : y.event ∈ emittedBy s'.b q'.conn (.final t) := by
        simp only [emittedBy, List.mem_map, List.mem_filter, decide_eq_true_eq]
        exact ⟨y, ⟨hy, hyo⟩, rfl⟩
      have hmem' : e ∈ emittedBy s'.b q'.conn (.final t) := by
        have : e ∈ emittedBy s.b q.conn (.final t) := by rw [hfin]; simp
        rw [g3]
        simp only [emittedBy, List.mem_map, List.mem_filter, decide_eq_true_eq] at this ⊢
        obtain ⟨z, ⟨z1, z2⟩, z3⟩ := this
        exact ⟨z, ⟨(hlater.ext.2.out _).subset z1, z2⟩, z3⟩
      have hle : ∃ z, emittedBy s'.b q'.conn (.final t) = [z] := by
        simp only [Finals, k1] at hf1
        revert hf1 hmem
        generalize emittedBy s'.b q'.conn (.final t) = L
        intro hmem hf1
        have hn : L ≠ [] := List.ne_nil_of_mem hmem
        split at hf1
        · split at hf1
          · exact ⟨_, hf1.choose_spec⟩
          · exact absurd hf1 hn
        · split at hf1
          · exact ⟨_, hf1.choose_spec⟩
          · exact absurd hf1 hn
        · exact absurd hf1 hn
      obtain ⟨z, hz⟩ := hle
      rw [hz, List.mem_singleton] at hmem hmem'
      exact first e hlost (by rw [hmem', ← hmem]; exact hx)
  refine ⟨none, fun hkind hph => ?_⟩
  have hs := (reqInv (Lossy.reachable_left h')).shape r q' hq'
  simp only [Endpoint.Shape, hph] at hs
  obtain ⟨l, x, e1, _, _, e2⟩ := hs
  exact (none x (by rw [e1]; simp)).1 (e2 hkind)

end

/-! ### Down to the bytes -/

section
variable {CA CB : Type} {ca : Config CA} {cb : Config CB} {linked : Nat → Bool} {kR kL : Nat → Link.DropKind} {checks : Bool}

/-- **C78: a lost request, over the bytes.** On connections on which emits are dropped: a request whose event is lost, because a later event of its connection has arrived, never gets a reply. -/
theorem C78_lost_request_bytes {s s' : Stack.St CA CB (fun c => (kR c).link checks) (fun c => (kL c).link checks)} {ops : List (Stack.Op (fun c => (kR c).link checks) (fun c => (kL c).link checks))}
    (h : Stack.Reachable ca cb linked (fun c => (kR c).link checks) (fun c => (kL c).link checks) s) (hrun : Stack.run ca cb linked (fun c => (kR c).link checks) (fun c => (kL c).link checks) s ops = some s')
    (hc : DropCarried linked kR kL s') (hd : System.DistinctIds s'.sys) (hf : FreshIds ca s'.sys.a) {r : Nat} {q q' : Req} (hq : s.sys.a.reqs r = some q) (hp : q.phase = .waiting)
    (hl : ∀ c, ca.group c = ca.group q.conn → linked c = true) (hlost : Lost ((s.sys.a.out q.conn).map (·.event)) (s.sys.b.arrived q.conn) q.event) (hq' : s'.sys.a.reqs r = some q') :
    q'.popped = [] ∧ (q'.phase = .waiting ∨ q'.phase = .finished .timeout ∨ q'.phase = .finished .dropped) := by
  obtain ⟨hc0, hlater⟩ := Stack.later_lossy (carR := fun c => (kR c).carries) (carL := fun c => (kL c).carries) (fun c _ => C78_loses_at_most (kR c) checks) (fun c _ => C78_loses_at_most (kL c) checks) ops h hrun hc
  exact C78_lost_request (C78_refines h hc0) hlater hd hf hq hp hl hlost hq'

/-- **C78: a lost answer, over the bytes.** -/
theorem C78_lost_answer_bytes {s s' : Stack.St CA CB (fun c => (kR c).link checks) (fun c => (kL c).link checks)} {ops : List (Stack.Op (fun c => (kR c).link checks) (fun c => (kL c).link checks))}
    (h : Stack.Reachable ca cb linked (fun c => (kR c).link checks) (fun c => (kL c).link checks) s) (hrun : Stack.run ca cb linked (fun c => (kR c).link checks) (fun c => (kL c).link checks) s ops = some s')
    (hc : DropCarried linked kR kL s') (hd : System.DistinctIds s'.sys) (hf : FreshIds ca s'.sys.a) {r : Nat} {q q' : Req} (hq : s.sys.a.reqs r = some q)
    (hl : ∀ c, ca.group c = ca.group q.conn → linked c = true) (hq' : s'.sys.a.reqs r = some q') :
    (∀ e, Lost ((s.sys.b.out q.conn).map (·.event)) (s.sys.a.arrived q.conn) e → e ∉ q'.popped) ∧
    (∀ t k, s.sys.b.tasks t = some k → k.event = q.event → k.conn = q.conn → ∀ e, emittedBy s.sys.b q.conn (.final t) = [e] → Lost ((s.sys.b.out q.conn).map (·.event)) (s.sys.a.arrived q.conn) e →
      (∀ x ∈ q'.popped, x.eventType ≠ .end ∧ x.eventType ≠ .error) ∧ (q'.kind = .stream → q'.phase ≠ .finished .replied)) := by
  obtain ⟨hc0, hlater⟩ := Stack.later_lossy (carR := fun c => (kR c).carries) (carL := fun c => (kL c).carries) (fun c _ => C78_loses_at_most (kR c) checks) (fun c _ => C78_loses_at_most (kL c) checks) ops h hrun hc
  exact C78_lost_answer (C78_refines h hc0) hlater hd hf hq hl hq'

end

/-- The emit of a long event is dropped in the middle of its write; the emit of the request finishes that write, returns `Ok`, and writes nothing of its own (C87). The event after it arrives. -/
def opsLostRequest : List (Stack.Op (fun c => (dropKind c).link true) (fun c => (dropKind c).link true)) := [
  .left (.emit (.conn 0) none "w" (List.replicate 1030 7) 6), .linkR 0 (.poll [.ready 5, .pending]), .linkR 0 .drop,
  .left (.request 0 (.conn 0) .single none "ping" [1] 7), .left (.sent 0), .linkR 0 (.poll [.ready 5000, .ready 5000]),
  .left (.emit (.conn 0) none "x" [] 8), .linkR 0 (.poll [.ready 1000, .ready 1]), .linkR 0 (.deliver 1125), .readR 0, .right (.take 0 3), .readR 0]

/-- A handler drops the emit of a long event in the middle of its write, and returns; the emit of its answer returns `Ok` and writes nothing of its own. A later event arrives. -/
def opsLostAnswer : List (Stack.Op (fun c => (dropKind c).link true) (fun c => (dropKind c).link true)) := [
  .left (.request 0 (.conn 0) .stream none "ping" [1] 7), .left (.sent 0), .linkR 0 (.poll [.ready 1000, .ready 1]), .linkR 0 (.deliver 51),
  .readR 0, .right (.take 0 3), .right (.emit (.task 3) none "a" (List.replicate 1030 7) 101), .linkL 0 (.poll [.ready 5, .pending]), .linkL 0 .drop,
  .right (.handlerDone 3 (.ok [6])), .right (.respond 3 102), .linkL 0 (.poll [.ready 5000, .ready 5000]),
  .right (.emit (.conn 0) none "x" [] 103), .linkL 0 (.poll [.ready 1000, .ready 1]), .linkL 0 (.deliver 1133),
  .readL 0, .left (.take 0 0), .left (.deliver 0 0), .left (.recv 0), .readL 0]

/-- All events of a state fit on the connections, and ids are different. -/
def lostFine (s : Stack.St Nat Nat (fun c => (dropKind c).link true) (fun c => (dropKind c).link true)) : Bool :=
  decide ((s.sys.a.created ++ s.sys.b.created).Nodup ∧ (∀ x ∈ s.sys.a.out 0, Fits x.event ∧ frameSize x.event + 1024 + 16 < 2 ^ 32) ∧
    (∀ x ∈ s.sys.b.out 0, Fits x.event ∧ frameSize x.event + 1024 + 16 < 2 ^ 32))

theorem lostFine_spec {s : Stack.St Nat Nat (fun c => (dropKind c).link true) (fun c => (dropKind c).link true)} (h : lostFine s = true)
    (hre : Stack.Reachable demo demo (fun c => c == 0) (fun c => (dropKind c).link true) (fun c => (dropKind c).link true) s) (hpr : ∀ t, Dest.handler t ∉ s.sys.a.processed.map (·.dest)) :
    DropCarried (fun c => c == 0) dropKind dropKind s ∧ System.DistinctIds s.sys ∧ FreshIds demo s.sys.a := by
  simp only [lostFine, decide_eq_true_eq] at h
  obtain ⟨hn, hoa, hob⟩ := h
  have hca : DropCarried (fun c => c == 0) dropKind dropKind s := by
    intro c hc
    have : c = 0 := by simpa using hc
    subst this
    exact ⟨hoa, hob⟩
  have hl := C78_refines hre hca
  refine ⟨hca, hn, Lossy.freshIds' hl hn fun t k hk => absurd (List.mem_map.2 ⟨({ conn := k.conn, event := k.event, dest := .handler t } : Entry), ?_, rfl⟩) (hpr t)⟩
  · have h1 := taskEntries_eq (Lossy.reachable_left hl) t
    rw [hk] at h1
    have : ({ conn := k.conn, event := k.event, dest := .handler t } : Entry) ∈ taskEntries s.sys.a t := by rw [h1]; simp [taskEntry]
    exact (List.mem_filter.1 this).1

/-- Run, go on, and look at both states. -/
theorem lost_runs {ops ops' : List (Stack.Op (fun c => (dropKind c).link true) (fun c => (dropKind c).link true))} {f : Stack.St Nat Nat (fun c => (dropKind c).link true) (fun c => (dropKind c).link true) → Stack.St Nat Nat (fun c => (dropKind c).link true) (fun c => (dropKind c).link true) → Bool}
    (h : ((Stack.run demo demo (fun c => c == 0) (fun c => (dropKind c).link true) (fun c => (dropKind c).link true) (Stack.init _ _) ops).bind fun s => (Stack.run demo demo (fun c => c == 0) (fun c => (dropKind c).link true) (fun c => (dropKind c).link true) s ops').map fun s' => f s s') = some true) :
    ∃ s s', Stack.run demo demo (fun c => c == 0) (fun c => (dropKind c).link true) (fun c => (dropKind c).link true) (Stack.init _ _) ops = some s ∧ Stack.run demo demo (fun c => c == 0) (fun c => (dropKind c).link true) (fun c => (dropKind c).link true) s ops' = some s' ∧ f s s' = true := by
  obtain ⟨s, h1, h2⟩ := Option.bind_eq_some_iff.1 h
  obtain ⟨s', h3, h4⟩ := Option.map_eq_some_iff.1 h2
  exact ⟨s, s', h1, h3, h4⟩

theorem stack_reachable_run {CA CB : Type} {ca : Config CA} {cb : Config CB} {linked : Nat → Bool} {LR LL : Nat → Link} : ∀ (ops : List (Stack.Op LR LL)) {x s s' : Stack.St CA CB LR LL} {ops' : List (Stack.Op LR LL)},
    Stack.run ca cb linked LR LL x ops = some s → Stack.run ca cb linked LR LL s ops' = some s' → Stack.run ca cb linked LR LL x (ops ++ ops') = some s'
  | [], _, _, _, _, h, h' => by cases h; exact h'
  | o :: ops, x, s, s', ops', h, h' => by
    simp only [Stack.run, List.cons_append, Option.bind_eq_some_iff] at h ⊢
    obtain ⟨z, h1, h2⟩ := h
    exact ⟨z, h1, stack_reachable_run ops h2 h'⟩

/-- The hypotheses of `C78_lost_request` and `C78_lost_request_bytes` can be met: the request waits, its event is lost, and later its timeout fires. -/
example : ∃ (s s' : Stack.St Nat Nat (fun c => (dropKind c).link true) (fun c => (dropKind c).link true)) (ops : List (Stack.Op (fun c => (dropKind c).link true) (fun c => (dropKind c).link true))) (q q' : Req),
    Stack.Reachable demo demo (fun c => c == 0) (fun c => (dropKind c).link true) (fun c => (dropKind c).link true) s ∧ Stack.run demo demo (fun c => c == 0) (fun c => (dropKind c).link true) (fun c => (dropKind c).link true) s ops = some s' ∧
    DropCarried (fun c => c == 0) dropKind dropKind s' ∧ System.DistinctIds s'.sys ∧ FreshIds demo s'.sys.a ∧ s.sys.a.reqs 0 = some q ∧ q.phase = .waiting ∧ q.conn = 0 ∧
    Lost ((s.sys.a.out 0).map (·.event)) (s.sys.b.arrived 0) q.event ∧ s'.sys.a.reqs 0 = some q' ∧ q'.phase = .finished .timeout := by
  obtain ⟨s, s', hs, hs', hf⟩ := lost_runs (ops := opsLostRequest) (ops' := [.left (.timeout 0)]) (f := fun s s' => lostFine s' && decide (s'.sys.a.processed = [] ∧
      (s.sys.a.reqs 0).map (fun q => (q.phase, q.conn, q.event)) = some (.waiting, 0, Event.new 7 none "ping" [1] none .initiator) ∧
      (s.sys.a.out 0).map (·.event) = [Event.new 6 none "w" (List.replicate 1030 7) none .initiator, Event.new 7 none "ping" [1] none .initiator, Event.new 8 none "x" [] none .initiator] ∧ s.sys.b.arrived 0 = [Event.new 6 none "w" (List.replicate 1030 7) none .initiator, Event.new 8 none "x" [] none .initiator] ∧
      (s'.sys.a.reqs 0).map (·.phase) = some (.finished .timeout))) (by decide +kernel)
  rw [Bool.and_eq_true, decide_eq_true_eq] at hf
  obtain ⟨f0, f1, f2, f3, f4, f5⟩ := hf
  obtain ⟨h1, h2, h3⟩ := lostFine_spec f0 ⟨_, stack_reachable_run _ hs hs'⟩ (by simp [f1])
  obtain ⟨q, q1, q2⟩ := Option.map_eq_some_iff.1 f2
  obtain ⟨q', q3, q4⟩ := Option.map_eq_some_iff.1 f5
  simp only [Prod.mk.injEq] at q2
  refine ⟨s, s', _, q, q', ⟨_, hs⟩, hs', h1, h2, h3, q1, q2.1, q2.2.1, ?_, q3, q4⟩
  rw [f3, f4, q2.2.2]
  exact ⟨by decide +kernel, [_, _], _, [], rfl, .tail _ (.head _), .tail _ (.head _)⟩

/-- The hypotheses of `C78_lost_answer` and `C78_lost_answer_bytes` can be met: the stream has got what the handler emitted, the answer is lost, and later the stream is dropped. -/
example : ∃ (s s' : Stack.St Nat Nat (fun c => (dropKind c).link true) (fun c => (dropKind c).link true)) (ops : List (Stack.Op (fun c => (dropKind c).link true) (fun c => (dropKind c).link true))) (q q' : Req) (k : Endpoint.Task Nat) (e : Event),
    Stack.Reachable demo demo (fun c => c == 0) (fun c => (dropKind c).link true) (fun c => (dropKind c).link true) s ∧ Stack.run demo demo (fun c => c == 0) (fun c => (dropKind c).link true) (fun c => (dropKind c).link true) s ops = some s' ∧
    DropCarried (fun c => c == 0) dropKind dropKind s' ∧ System.DistinctIds s'.sys ∧ FreshIds demo s'.sys.a ∧ s.sys.a.reqs 0 = some q ∧ q.conn = 0 ∧ q.kind = .stream ∧
    s.sys.b.tasks 3 = some k ∧ k.event = q.event ∧ k.conn = 0 ∧ emittedBy s.sys.b 0 (.final 3) = [e] ∧ Lost ((s.sys.b.out 0).map (·.event)) (s.sys.a.arrived 0) e ∧
    s'.sys.a.reqs 0 = some q' ∧ q'.popped = [Event.new 101 none "a" (List.replicate 1030 7) (some 7) .response] ∧ q'.phase = .finished .dropped := by
  obtain ⟨s, s', hs, hs', hf⟩ := lost_runs (ops := opsLostAnswer) (ops' := [.left (.drop 0)]) (f := fun s s' => lostFine s' && decide (s'.sys.a.processed.map (·.dest) = [.reply 0] ∧
      (s.sys.a.reqs 0).map (fun q => (q.kind, q.conn, q.event)) = some (.stream, 0, Event.new 7 none "ping" [1] none .initiator) ∧
      (s.sys.b.out 0).map (·.event) = [Event.new 101 none "a" (List.replicate 1030 7) (some 7) .response, Event.new 102 none "end" [6] (some 7) .end, Event.new 103 none "x" [] none .initiator] ∧
      s.sys.a.arrived 0 = [Event.new 101 none "a" (List.replicate 1030 7) (some 7) .response, Event.new 103 none "x" [] none .initiator] ∧
      (s.sys.b.tasks 3).map (fun k => (k.conn, k.event)) = some (0, Event.new 7 none "ping" [1] none .initiator) ∧ emittedBy s.sys.b 0 (.final 3) = [Event.new 102 none "end" [6] (some 7) .end] ∧
      (s'.sys.a.reqs 0).map (fun q => (q.phase, q.popped)) = some (.finished .dropped, [Event.new 101 none "a" (List.replicate 1030 7) (some 7) .response]))) (by decide +kernel)
  rw [Bool.and_eq_true, decide_eq_true_eq] at hf
  obtain ⟨f0, f1, f2, f3, f4, f5, f6, f7⟩ := hf
  obtain ⟨h1, h2, h3⟩ := lostFine_spec f0 ⟨_, stack_reachable_run _ hs hs'⟩ (by simp [f1])
  obtain ⟨q, q1, q2⟩ := Option.map_eq_some_iff.1 f2
  obtain ⟨k, k1, k2⟩ := Option.map_eq_some_iff.1 f5
  obtain ⟨q', q3, q4⟩ := Option.map_eq_some_iff.1 f7
  simp only [Prod.mk.injEq] at q2 k2 q4
  refine ⟨s, s', _, q, q', k, _, ⟨_, hs⟩, hs', h1, h2, h3, q1, q2.2.1, q2.1, k1, k2.2.trans q2.2.2.symm, k2.1, f6, ?_, q3, q4.2, q4.1⟩
  rw [f3, f4]
  exact ⟨by decide +kernel, [_, _], _, [], rfl, .tail _ (.head _), .tail _ (.head _)⟩

end Bromine.Props
