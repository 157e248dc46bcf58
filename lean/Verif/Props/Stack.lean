import Verif.Lemmas.LayerLink
import Verif.Lemmas.Stack
import Verif.Props.System
import Verif.Props.CryptPoll
/-
C57, C58: endpoints joined by byte streams.
-/
namespace Bromine.Props
open Endpoint Spec

/-- **C57, one direction of a connection.** Whatever the emitters, the transport and the receiver do, in any order, with any partial
writes and reads: the events read are those emitted, in order, none lost, doubled or changed. -/
theorem C57_faithful (k : Link.Kind) (checks : Bool) : (k.link checks).Faithful k.carries := by
  intro s em rd h hc
  cases k with
  | plain => exact (Link.plain_inv checks h hc).carried.pre
  | encrypted A key log => exact (Link.crypt_inv A key log checks h hc).carried.pre
  | layered A l ls => exact (Layers.layered_inv A l ls checks h hc).carried.pre

/-- **C58, one direction of a connection.** The connection is never stuck by itself: in every state it is possible, without help from any other
emitter, that all the events emitted so far get read. -/
theorem C58_link_live (k : Link.Kind) (checks : Bool) : (k.link checks).Live k.carries := by
  cases k with
  | plain => exact Link.plain_live checks
  | encrypted A key log => exact Link.crypt_live A key log checks
  | layered A l ls => exact (Layers.layeredMoves A l ls checks).live (C57_faithful (.layered A l ls) checks)

section
variable {CA CB : Type} {ca : Config CA} {cb : Config CB} {linked : Nat → Bool} {kR kL : Nat → Link.Kind} {checks : Bool}

/-- The stack with connections of the given kinds. -/
abbrev StackReachable (ca : Config CA) (cb : Config CB) (linked : Nat → Bool) (kR kL : Nat → Link.Kind) (checks : Bool)
    (s : Stack.St CA CB (fun c => (kR c).link checks) (fun c => (kL c).link checks)) : Prop :=
  Stack.Reachable ca cb linked (fun c => (kR c).link checks) (fun c => (kL c).link checks) s

/-- Every event written on a linked connection can be carried by it. -/
abbrev AllCarried (linked : Nat → Bool) (kR kL : Nat → Link.Kind)
    (s : Stack.St CA CB (fun c => (kR c).link checks) (fun c => (kL c).link checks)) : Prop :=
  ∀ c, linked c = true → (∀ x ∈ s.sys.a.out c, (kR c).carries x.event) ∧ (∀ x ∈ s.sys.b.out c, (kL c).carries x.event)

/-- **C57, refinement.** However the bytes are written, cut, delayed and delivered: what the two endpoints can get to see is
what they can get to see if events arrive as a whole and in order. All properties of two joined endpoints carry over. -/
theorem C57_refines {s : Stack.St CA CB (fun c => (kR c).link checks) (fun c => (kL c).link checks)}
    (h : StackReachable ca cb linked kR kL checks s) (hc : AllCarried linked kR kL s) : System.Reachable ca cb linked s.sys :=
  Stack.refines (carR := fun c => (kR c).carries) (carL := fun c => (kL c).carries) (fun c _ => C57_faithful (kR c) checks)
    (fun c _ => C57_faithful (kL c) checks) h hc

/-- **C57, end to end.** Two endpoints joined by any number of plain and encrypted connections, any number of concurrent requests and
handlers, any fragmentation of the bytes: everything a request has received was emitted by the one handler task of the other side that
handled the event of this request, and is a prefix of what that task emitted. -/
theorem C57_end_to_end {s : Stack.St CA CB (fun c => (kR c).link checks) (fun c => (kL c).link checks)}
    (h : StackReachable ca cb linked kR kL checks s) (hc : AllCarried linked kR kL s) (hd : System.DistinctIds s.sys)
    (hf : FreshIds ca s.sys.a) {r : Nat} {q : Req} (hq : s.sys.a.reqs r = some q)
    (hl : ∀ c, ca.group c = ca.group q.conn → linked c = true) (hp : q.popped ≠ []) :
    ∃ t k, s.sys.b.tasks t = some k ∧ k.event = q.event ∧ k.conn = q.conn ∧ q.popped <+: answersOf s.sys.b q.conn t ∧
      ∀ t' k', s.sys.b.tasks t' = some k' → k'.event = q.event → k'.conn = q.conn → t' = t :=
  C46_end_to_end (C57_refines h hc) hd hf hq hl hp

/-- **C57, the answer.** The End or Error event that a request receives over the bytes carries the result of its handler. -/
theorem C57_final_result {s : Stack.St CA CB (fun c => (kR c).link checks) (fun c => (kL c).link checks)}
    (h : StackReachable ca cb linked kR kL checks s) (hc : AllCarried linked kR kL s) (hd : System.DistinctIds s.sys)
    (hf : FreshIds ca s.sys.a) {r : Nat} {q : Req} (hq : s.sys.a.reqs r = some q)
    (hl : ∀ c, ca.group c = ca.group q.conn → linked c = true) {e : Event} (he : e ∈ q.popped)
    (hty : e.eventType = .end ∨ e.eventType = .error) :
    ∃ t k res, s.sys.b.tasks t = some k ∧ k.event = q.event ∧ k.conn = q.conn ∧ IsAnswer cb.fmtDebug q.event res e ∧
      (k.phase = .cleaning res true ∨ k.phase = .done res true) :=
  C46_final_result (C57_refines h hc) hd hf hq hl he hty

end

/-- Connection 0 is encrypted, the others are plain. -/
def demoKind : Nat → Link.Kind
  | 0 => .encrypted toyAead [5]
  | _ => .plain

abbrev DemoOp := Stack.Op (fun c => (demoKind c).link true) (fun c => (demoKind c).link true)

/-- A request on an encrypted and one on a plain connection at the same time; the bytes come in pieces. -/
def opsStack : List DemoOp := [
  .left (.request 0 (.conn 0) .single none "ping" [1] 7), .left (.request 1 (.conn 1) .single none "ping" [2] 8),
  .left (.sent 0), .left (.sent 1),
  .linkR 0 (.poll [.ready 1000, .ready 0]), .linkR 1 (.write 3), .linkR 1 (.deliver 1), .linkR 1 .wait,
  .linkR 0 (.deliver 0), .linkR 0 .wait, .linkR 0 (.deliver 50), .readR 0, .right (.take 0 3),
  .linkR 1 (.write 27), .linkR 1 .flush, .linkR 1 (.deliver 29), .readR 1, .right (.take 1 4),
  .right (.handlerDone 4 (.ok [6])), .right (.handlerDone 3 (.ok [9])), .right (.respond 4 101), .right (.respond 3 102),
  .linkL 1 (.write 38), .linkL 1 .flush, .linkL 1 (.deliver 38), .readL 1, .left (.take 1 0), .left (.deliver 1 0), .left (.recv 1),
  .linkL 0 (.poll [.ready 1000, .ready 0]), .linkL 0 (.deliver 58), .readL 0, .left (.take 0 0), .left (.deliver 0 0), .left (.recv 0)]



instance (e : Event) : Decidable (Small e) := inferInstanceAs (Decidable (_ ∧ _))

/-- The hypotheses of C57 can be met: two requests at the same time over an encrypted and a plain connection. -/
example : ∃ (s : Stack.St Nat Nat (fun c => (demoKind c).link true) (fun c => (demoKind c).link true)) (q q' : Req),
    StackReachable demo demo (fun c => c == 0 || c == 1) demoKind demoKind true s ∧ AllCarried (fun c => c == 0 || c == 1) demoKind demoKind s ∧
    System.DistinctIds s.sys ∧ FreshIds demo s.sys.a ∧ s.sys.a.reqs 0 = some q ∧ s.sys.a.reqs 1 = some q' ∧
    (∀ c, demo.group c = demo.group q.conn ∨ demo.group c = demo.group q'.conn → (c == 0 || c == 1) = true) ∧
    q.popped = [Event.new 102 none "end" [9] (some 7) .end] ∧ q'.popped = [Event.new 101 none "end" [6] (some 8) .end] := by
  obtain ⟨s, hs, hq, hq', hn, ho0, ho1, ho0', ho1', hpr⟩ : ∃ s, Stack.run demo demo (fun c => c == 0 || c == 1) (fun c => (demoKind c).link true)
      (fun c => (demoKind c).link true) (Stack.init _ _) opsStack = some s ∧
      (s.sys.a.reqs 0).map (fun q => (q.conn, q.popped)) = some (0, [Event.new 102 none "end" [9] (some 7) .end]) ∧
      (s.sys.a.reqs 1).map (fun q => (q.conn, q.popped)) = some (1, [Event.new 101 none "end" [6] (some 8) .end]) ∧
      (s.sys.a.created ++ s.sys.b.created).Nodup ∧
      (∀ x ∈ s.sys.a.out 0, Small x.event) ∧ (∀ x ∈ s.sys.a.out 1, Fits x.event ∧ Allocatable x.event) ∧
      (∀ x ∈ s.sys.b.out 0, Small x.event) ∧ (∀ x ∈ s.sys.b.out 1, Fits x.event ∧ Allocatable x.event) ∧
      s.sys.a.processed.map (·.dest) = [.reply 1, .reply 0] := by
    apply witness
    have : ((Stack.run demo demo (fun c => c == 0 || c == 1) (fun c => (demoKind c).link true)
      (fun c => (demoKind c).link true) (Stack.init _ _) opsStack).map fun s =>
        decide ((s.sys.a.reqs 0).map (fun q => (q.conn, q.popped)) = some (0, [Event.new 102 none "end" [9] (some 7) .end]) ∧
      (s.sys.a.reqs 1).map (fun q => (q.conn, q.popped)) = some (1, [Event.new 101 none "end" [6] (some 8) .end]) ∧
      (s.sys.a.created ++ s.sys.b.created).Nodup ∧
      (∀ x ∈ s.sys.a.out 0, Small x.event) ∧ (∀ x ∈ s.sys.a.out 1, Fits x.event ∧ Allocatable x.event) ∧
      (∀ x ∈ s.sys.b.out 0, Small x.event) ∧ (∀ x ∈ s.sys.b.out 1, Fits x.event ∧ Allocatable x.event) ∧
      s.sys.a.processed.map (·.dest) = [.reply 1, .reply 0])) = some true := by decide +kernel
    revert this
    cases Stack.run demo demo (fun c => c == 0 || c == 1) (fun c => (demoKind c).link true) (fun c => (demoKind c).link true) (Stack.init _ _) opsStack with
    | none => intro h; cases h
    | some s => intro h; simp only [Option.map_some, Option.some.injEq, decide_eq_true_eq] at h; exact h
  have hre : StackReachable demo demo (fun c => c == 0 || c == 1) demoKind demoKind true s := ⟨_, hs⟩
  have hca : AllCarried (fun c => c == 0 || c == 1) demoKind demoKind s := by
    intro c hc
    have : c = 0 ∨ c = 1 := by simpa using hc
    rcases this with rfl | rfl
    · exact ⟨ho0, ho0'⟩
    · exact ⟨ho1, ho1'⟩
  have hsys := C57_refines hre hca
  have htasks : ∀ t k, s.sys.a.tasks t = some k → False := by
    intro t k hk
    have h1 := taskEntries_eq (System.reachable_left hsys) t
    rw [hk] at h1
    have hm : ({ conn := k.conn, event := k.event, dest := .handler t } : Entry) ∈ s.sys.a.processed := by
      have : ({ conn := k.conn, event := k.event, dest := .handler t } : Entry) ∈ taskEntries s.sys.a t := by rw [h1]; simp [taskEntry]
      exact (List.mem_filter.1 this).1
    have : Dest.handler t ∈ s.sys.a.processed.map (·.dest) := List.mem_map.2 ⟨_, hm, rfl⟩
    rw [hpr] at this
    simp at this
  obtain ⟨q, hq1, hq2⟩ := Option.map_eq_some_iff.1 hq
  obtain ⟨q', hq1', hq2'⟩ := Option.map_eq_some_iff.1 hq'
  simp only [Prod.mk.injEq] at hq2 hq2'
  refine ⟨s, q, q', hre, hca, hn, System.freshIds' hsys hn (fun t k hk => (htasks t k hk).elim), hq1, hq1', ?_, hq2.2, hq2'.2⟩
  rw [hq2.1, hq2'.1]
  intro c hc
  simpa [demo] using hc

end Bromine.Props
