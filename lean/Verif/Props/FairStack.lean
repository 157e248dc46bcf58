import Verif.Lemmas.FairStack
import Verif.Props.Fair
/-
C71: what must happen if nobody is neglected for ever, down to the bytes.
-/
namespace Bromine.Props
open Endpoint Spec

section
variable {CA CB : Type} {ca : Config CA} {cb : Config CB} {linked : Nat → Bool} {kR kL : Nat → Link.Kind} {checks : Bool}
variable {σ : Nat → Stack.St CA CB (fun c => (kR c).link checks) (fun c => (kL c).link checks)}
variable {op : Nat → Option (Stack.Op (fun c => (kR c).link checks) (fun c => (kL c).link checks))}

theorem fair_of_stack (F : FairStack ca cb linked kR kL checks σ op) :
    Stack.Fair ca cb linked (fun c => (kR c).writes checks) (fun c => (kR c).transports checks) (fun c => (kL c).writes checks)
      (fun c => (kL c).transports checks) σ op :=
  ⟨F.run, F.left, F.right, F.writesR, F.writesL, F.carriesR, F.carriesL, F.readsR, F.readsL⟩

/-- **C71, connections get free.** In a fair execution whoever holds a connection for writing an event is done at some time: again and again there is a
moment at which another emit could get the connection. -/
theorem C71_connection_gets_free (F : FairStack ca cb linked kR kL checks σ op) (hc : ∀ m, AllCarried linked kR kL (σ m)) {c : Nat} (hl : linked c = true)
    (n : Nat) : ∃ m, n ≤ m ∧ ∀ e, ∃ l, ((kR c).link checks).emit ((σ m).right c) e = some l := by
  have F' := fair_of_stack F
  obtain ⟨m, hm, h⟩ := Stack.fair_frees (carR := fun c => (kR c).carries) (carL := fun c => (kL c).carries) F' (fun c => (kR c).moves checks) hc hl n
  exact ⟨m, hm, fun e => ((kR c).moves checks).can_emit e ((Stack.exec_inv F.run m).right c hl)
    (Stack.car_events (carR := fun c => (kR c).carries) (carL := fun c => (kL c).carries) hc hl m) h⟩

/-- **C71, refinement.** Fair scheduling of endpoints, writers, transport and receive loops at the level of bytes is fair scheduling of the two endpoints
at the level of events. -/
theorem C71_refines (F : FairStack ca cb linked kR kL checks σ op) (hc : ∀ m, AllCarried linked kR kL (σ m)) :
    FairSys ca cb linked (fun n => (σ n).sys) (Stack.sysOps op) :=
  Stack.fair_sys (carR := fun c => (kR c).carries) (carL := fun c => (kL c).carries) (fair_of_stack F) (fun c => (kR c).moves checks)
    (fun c => (kL c).moves checks) (fun c _ => C57_faithful (kR c) checks) (fun c _ => C57_faithful (kL c) checks) hc

/-- **C71, events.** Every event written on a linked plain or encrypted connection, whatever the fragmentation of its bytes, is dealt with by the other side in
its place, as in C70. -/
theorem C71_emitted_event_is_served (F : FairStack ca cb linked kR kL checks σ op) (hc : ∀ m, AllCarried linked kR kL (σ m)) {c : Nat} (hl : linked c = true)
    {n i : Nat} {x : OutEntry} (hx : ((σ n).sys.a.out c)[i]? = some x) :
    ∃ m, n ≤ m ∧ (¬ Receiving (σ m).sys.b c ∨ ((handledOn (σ m).sys.b c)[i]? = some x.event ∧
      (x.event.eventType = .end ∨
      (∃ r q, (σ m).sys.b.reqs r = some q ∧ x.event.referenceId = some q.event.id ∧ x.event ∈ delivered (σ m).sys.b r) ∨
      ∃ t k, (σ m).sys.b.tasks t = some k ∧ k.event = x.event ∧ k.conn = c ∧
        (¬ Healthy k ∨ ∃ res a, IsAnswer cb.fmtDebug x.event res a ∧ emittedBy (σ m).sys.b c (.final t) = [a])))) :=
  C70_emitted_event_is_served (C71_refines F hc) hl hx

/-- **C71, `await_reply`.** In every fair execution at the level of bytes, `await_reply` returns one reply to its request, unless something has come between. -/
theorem C71_await_reply_completes (F : FairStack ca cb linked kR kL checks σ op) (hc : ∀ m, AllCarried linked kR kL (σ m)) (hl : ∀ c, linked c = true)
    (hd : ∀ m, System.DistinctIds (σ m).sys) {n r : Nat} {q : Req} (hq : (σ n).sys.a.reqs r = some q) (hkind : q.kind = .single)
    (hnoref : q.event.referenceId = none) :
    ∃ m, n ≤ m ∧ (GivenUp (σ m).sys r q ∨ ∃ q' e, (σ m).sys.a.reqs r = some q' ∧ q'.event = q.event ∧ q'.phase = .finished .replied ∧ q'.popped = [e] ∧
      e.referenceId = some q.event.id) :=
  C70_await_reply_completes (C71_refines F hc) hl hd hq hkind hnoref

/-- **C71, `stream_replies`.** In every fair execution at the level of bytes, a stream that is read gets to its end or yields the error of its handler. -/
theorem C71_stream_completes (F : FairStack ca cb linked kR kL checks σ op) (hc : ∀ m, AllCarried linked kR kL (σ m)) (hl : ∀ c, linked c = true)
    (hd : ∀ m, System.DistinctIds (σ m).sys) {n r : Nat} {q : Req} (hq : (σ n).sys.a.reqs r = some q) (hkind : q.kind = .stream)
    (hnoref : q.event.referenceId = none) :
    ∃ m, n ≤ m ∧ (GivenUp (σ m).sys r q ∨ ∃ q', (σ m).sys.a.reqs r = some q' ∧ q'.event = q.event ∧
      ((q'.phase = .finished .replied ∧ ∃ l e, q'.popped = l ++ [e] ∧ e.eventType = .end) ∨ ∃ e ∈ q'.popped, e.eventType = .error)) :=
  C70_stream_completes (C71_refines F hc) hl hd hq hkind hnoref

end

/-! ### A fair execution -/

theorem fairTasks_walk {S O CB : Type} {step : S → O → Option S} {s s' : S} {ops : List O} (h : Chain step s ops s') {lift : Endpoint.Op → O} {cfg : Config CB}
    {x : State CB} (hx : Resting x) (hlift : ∀ o y, step s' (lift o) = some y → ∃ x', Endpoint.step cfg x o = some x') :
    FairTasks step (walk step s ops) (fun n => ops[n]?) lift := by
  have no : ∀ o y, step s' (lift o) = some y → _ := fun o y hy => (hx.none (hlift o y hy).choose_spec)
  have F := fairSide_walk h hx hlift
  refine ⟨F.takes, F.delivers, fun r => walk_strong h ?_, F.reads, F.finishes, F.handlers, fun t => walk_strong h ?_⟩
  · rintro ⟨o, y, rfl, hy⟩; exact (no _ y hy).2.2.1 r rfl
  · rintro ⟨o, y, ⟨id, rfl⟩, hy⟩; exact (no _ y hy).2.2.2.2.2.2.2.2.1 t id rfl

section
variable {CA CB : Type} {ca : Config CA} {cb : Config CB} {linked : Nat → Bool} {LR LL : Nat → Link}

theorem stack_chain {s s' : Stack.St CA CB LR LL} {ops : List (Stack.Op LR LL)} (h : Stack.run ca cb linked LR LL s ops = some s') :
    Chain (Stack.step ca cb linked LR LL) s ops s' := by
  induction ops generalizing s with
  | nil => exact Option.some.inj h
  | cons o ops ih =>
    simp only [Stack.run, Option.bind_eq_some_iff] at h
    obtain ⟨y, h1, h2⟩ := h
    exact ⟨y, h1, ih h2⟩

theorem stack_sys_run {carR carL : Nat → Event → Prop} (hR : ∀ c, linked c = true → (LR c).Faithful (carR c))
    (hL : ∀ c, linked c = true → (LL c).Faithful (carL c)) {s s' : Stack.St CA CB LR LL} {ops : List (Stack.Op LR LL)} (hi : Stack.Inv linked s)
    (h : Stack.run ca cb linked LR LL s ops = some s') (hc : Stack.Carriable linked carR carL s') :
    System.run ca cb linked s.sys (ops.filterMap Stack.sysOp) = some s'.sys ∧ Stack.Carriable linked carR carL s := by
  induction ops generalizing s with
  | nil => cases h; exact ⟨rfl, hc⟩
  | cons o ops ih =>
    simp only [Stack.run, Option.bind_eq_some_iff] at h
    obtain ⟨y, h1, h2⟩ := h
    obtain ⟨h3, h4⟩ := ih (Stack.inv_step hi h1) h2
    have h5 := Stack.carriable_back h1 h4
    have h6 := Stack.sys_step hR hL hi h5 h1
    refine ⟨?_, h5⟩
    simp only [List.filterMap_cons]
    cases hp : Stack.sysOp o with
    | none => rw [hp] at h6; simp only at h6 ⊢; rw [← h6]; exact h3
    | some p => rw [hp] at h6; simp only [System.run]; rw [h6]; exact h3

/-- A run after which both sides rest, no connection is held, everything written has been delivered and read can be continued to a fair execution. -/
theorem fairStack_walk {kR kL : Nat → Link.Kind} {checks : Bool} {s : Stack.St CA CB (fun c => (kR c).link checks) (fun c => (kL c).link checks)}
    {ops : List (Stack.Op (fun c => (kR c).link checks) (fun c => (kL c).link checks))}
    (h : Stack.run ca cb linked _ _ (Stack.init _ _) ops = some s) (ha : Resting s.sys.a) (hb : Resting s.sys.b)
    (hR : ∀ c o l, ((kR c).link checks).step (s.right c) o = some l → ¬ (kR c).writes checks o ∧ ¬ (kR c).transports checks o)
    (hL : ∀ c o l, ((kL c).link checks).step (s.left c) o = some l → ¬ (kL c).writes checks o ∧ ¬ (kL c).transports checks o)
    (rR : ∀ c, linked c = true → ((kR c).link checks).read (s.right c) = none) (rL : ∀ c, linked c = true → ((kL c).link checks).read (s.left c) = none) :
    FairStack ca cb linked kR kL checks (walk (Stack.step ca cb linked _ _) (Stack.init _ _) ops) (fun n => ops[n]?) := by
  have hc := stack_chain h
  refine ⟨walk_exec hc, fairTasks_walk hc (cfg := ca) ha ?_, fairTasks_walk hc (cfg := cb) hb ?_, fun c => weak_of_strong (walk_strong hc ?_),
    fun c => weak_of_strong (walk_strong hc ?_), fun c => weak_of_strong (walk_strong hc ?_), fun c => weak_of_strong (walk_strong hc ?_),
    fun c => weak_of_strong (walk_strong hc ?_), fun c => weak_of_strong (walk_strong hc ?_)⟩
  · intro o y hy
    simp only [Stack.step] at hy
    split at hy
    · obtain ⟨x, h1, _⟩ := Option.bind_eq_some_iff.1 hy; exact ⟨x, h1⟩
    · cases hy
  · intro o y hy
    simp only [Stack.step] at hy
    split at hy
    · obtain ⟨x, h1, _⟩ := Option.bind_eq_some_iff.1 hy; exact ⟨x, h1⟩
    · cases hy
  · rintro ⟨o, y, ⟨x, rfl, hx⟩, hy⟩
    simp only [Stack.step] at hy
    obtain ⟨l, h1, _⟩ := Option.map_eq_some_iff.1 hy
    exact (hR c x l h1).1 hx
  · rintro ⟨o, y, ⟨x, rfl, hx⟩, hy⟩
    simp only [Stack.step] at hy
    obtain ⟨l, h1, _⟩ := Option.map_eq_some_iff.1 hy
    exact (hL c x l h1).1 hx
  · rintro ⟨o, y, ⟨x, rfl, hx⟩, hy⟩
    simp only [Stack.step] at hy
    obtain ⟨l, h1, _⟩ := Option.map_eq_some_iff.1 hy
    exact (hR c x l h1).2 hx
  · rintro ⟨o, y, ⟨x, rfl, hx⟩, hy⟩
    simp only [Stack.step] at hy
    obtain ⟨l, h1, _⟩ := Option.map_eq_some_iff.1 hy
    exact (hL c x l h1).2 hx
  · rintro ⟨o, y, rfl, hy⟩
    simp only [Stack.step] at hy
    split at hy
    · rename_i hlc
      rw [rR c hlc.1] at hy; cases hy
    · cases hy
  · rintro ⟨o, y, rfl, hy⟩
    simp only [Stack.step] at hy
    split at hy
    · rename_i hlc
      rw [rL c hlc.1] at hy; cases hy
    · cases hy

/-- Nothing can be read if everything has been. -/
theorem read_none {L : Link} {car : Event → Prop} (hf : L.Faithful car) {s : L.State} {em : List Event} (h : L.Hist s em em) (hc : ∀ e ∈ em, car e) :
    L.read s = none := by
  cases hr : L.read s with
  | none => rfl
  | some p =>
    obtain ⟨e, l⟩ := p
    have := (hf _ _ _ (.read e h hr) hc).length_le
    simp at this
    omega

/-- A plain connection that nobody holds, with everything written delivered. -/
theorem plain_quiet {s l : Link.PlainState} {o : Link.PlainOp} (hl : s.w.lock = none) (hs : s.w.wire.length ≤ s.sent)
    (h : Link.plainStep s o = some l) : ¬ Link.Kind.writes checks .plain o ∧ ¬ Link.Kind.transports checks .plain o := by
  cases o with
  | write n => simp [Link.plainStep, hl] at h
  | flush => simp [Link.plainStep, hl] at h
  | deliver n => simp [Link.plainStep, Link.deliver] at h; omega
  | wait => exact ⟨(by rintro (⟨n, h⟩ | h) <;> cases h), (by rintro ⟨n, h⟩; cases h)⟩

/-- The same for an encrypted connection. -/
theorem crypt_quiet {A : Aead} {key : Bytes} {log : List Encryption} {s l : Link.CryptState} {o : Link.CryptOp} (hl : s.w.lock = none) (hs : s.w.wire.length ≤ s.sent)
    (h : Link.cryptStep A s o = some l) : ¬ Link.Kind.writes checks (.encrypted A key log) o ∧ ¬ Link.Kind.transports checks (.encrypted A key log) o := by
  cases o with
  | poll as => simp [Link.cryptStep, hl] at h
  | deliver n => simp [Link.cryptStep, Link.deliver] at h; omega
  | wait => exact ⟨(by rintro ⟨n, as, h⟩; cases h), (by rintro ⟨n, h⟩; cases h)⟩

/-- A plain connection on which nothing has been emitted. -/
theorem plain_unused {s : (Link.plain checks).State} {em rd : List Event} (h : Link.Hist (Link.plain checks) s em rd) (he : em = []) :
    (Link.PlainState.w s).lock = none ∧ (Link.PlainState.w s).wire = [] := by
  induction h with
  | init => exact ⟨rfl, rfl⟩
  | @step s s' em rd o _ hs ih =>
    obtain ⟨h1, h2⟩ := ih he
    change Link.plainStep s o = some s' at hs
    cases o with
    | write n => simp [Link.plainStep, h1] at hs
    | flush => simp [Link.plainStep, h1] at hs
    | deliver n => simp [Link.plainStep, Link.deliver, h2] at hs
    | wait => cases hs; exact ⟨h1, h2⟩
  | emit e => simp at he
  | @read s s' em rd e _ hr ih =>
    obtain ⟨h1, h2⟩ := ih he
    change (match Event.fromAsyncRead scriptSource checks { chunks := Link.PlainState.chunks s, closed := false } with
        | .ok (e, sc) => some (e, ({ (show Link.PlainState from s) with chunks := sc.chunks } : Link.PlainState))
        | _ => none) = some (e, s') at hr
    split at hr
    · cases hr; exact ⟨h1, h2⟩
    · cases hr

end

/-- As `opsStack` (a request on an encrypted connection and one on a plain connection at the same time, the bytes in pieces), to the end. -/
def opsStackOut : List DemoOp := opsStack ++ [.left (.finish 0), .left (.finish 1)]

abbrev DemoSt := Stack.St Nat Nat (fun c => (demoKind c).link true) (fun c => (demoKind c).link true)

/-- The state of connection 0 and of connection 1. -/
def link0 (s : DemoSt) : Link.CryptState × Link.CryptState := (s.right 0, s.left 0)
def link1 (s : DemoSt) : Link.PlainState × Link.PlainState := (s.right 1, s.left 1)

instance (e : Event) : Decidable (Fits e ∧ Allocatable e) := inferInstance

theorem demo_stack_end : ∃ s : DemoSt, Stack.run demo demo (fun _ => true) _ _ (Stack.init _ _) opsStackOut = some s ∧
    (link0 s).1.w.lock = none ∧ (link0 s).1.w.wire.length ≤ (link0 s).1.sent ∧ (link0 s).2.w.lock = none ∧ (link0 s).2.w.wire.length ≤ (link0 s).2.sent ∧
    (link1 s).1.w.lock = none ∧ (link1 s).1.w.wire.length ≤ (link1 s).1.sent ∧ (link1 s).2.w.lock = none ∧ (link1 s).2.w.wire.length ≤ (link1 s).2.sent ∧
    (∀ x ∈ s.sys.a.out 0, Small x.event) ∧ (∀ x ∈ s.sys.a.out 1, Fits x.event ∧ Allocatable x.event) ∧
    (∀ x ∈ s.sys.b.out 0, Small x.event) ∧ (∀ x ∈ s.sys.b.out 1, Fits x.event ∧ Allocatable x.event) := by
  apply witness
  have : ((Stack.run demo demo (fun _ => true) (fun c => (demoKind c).link true)
    (fun c => (demoKind c).link true) (Stack.init _ _) opsStackOut).map fun s =>
      decide ((link0 s).1.w.lock = none ∧ (link0 s).1.w.wire.length ≤ (link0 s).1.sent ∧ (link0 s).2.w.lock = none ∧ (link0 s).2.w.wire.length ≤ (link0 s).2.sent ∧
    (link1 s).1.w.lock = none ∧ (link1 s).1.w.wire.length ≤ (link1 s).1.sent ∧ (link1 s).2.w.lock = none ∧ (link1 s).2.w.wire.length ≤ (link1 s).2.sent ∧
    (∀ x ∈ s.sys.a.out 0, Small x.event) ∧ (∀ x ∈ s.sys.a.out 1, Fits x.event ∧ Allocatable x.event) ∧
    (∀ x ∈ s.sys.b.out 0, Small x.event) ∧ (∀ x ∈ s.sys.b.out 1, Fits x.event ∧ Allocatable x.event))) = some true := by decide +kernel
  revert this
  cases Stack.run demo demo (fun _ => true) (fun c => (demoKind c).link true) (fun c => (demoKind c).link true) (Stack.init _ _) opsStackOut with
  | none => intro h; cases h
  | some s => intro h; simp only [Option.map_some, Option.some.injEq, decide_eq_true_eq] at h; exact h

/-- Connection `c` is not used. -/
structure Unused {CB : Type} (c : Nat) (s : State CB) : Prop where
  out : s.out c = []
  inbox : s.inbox c = []
  loop : s.loop c = .idle
  reqs : ∀ r q, s.reqs r = some q → q.conn ≠ c
  tasks : ∀ t k, s.tasks t = some k → k.conn ≠ c

/-- The step does not concern connection `c`. -/
def elsewhere (c : Nat) : Endpoint.Op → Prop
  | .arrive d _ => d ≠ c
  | .stop d | .abort d | .readEnd d => d ≠ c
  | .request _ (.conn d) _ _ _ _ _ => d ≠ c
  | .emit (.conn d) _ _ _ _ => d ≠ c
  | _ => True

theorem Unused.step {CB : Type} {cfg : Config CB} {c : Nat} {s s' : State CB} {o : Endpoint.Op} (h : Unused c s) (he : elsewhere c o)
    (hs : Endpoint.step cfg s o = some s') : Unused c s' := by
  have hctx : ∀ ctx d ref, ctxOf cfg s ctx = some (d, ref) → (∀ d', ctx = .conn d' → d' ≠ c) → d ≠ c := by
    rintro (d' | t) d ref hx hy
    · cases hx; exact hy _ rfl
    · simp only [ctxOf] at hx
      split at hx
      · rename_i k hk
        split at hx
        · cases hx; exact h.tasks t k hk
        · cases hx
      · cases hx
  obtain ⟨h1, h2, h3, h4, h5⟩ := h
  have hs := stepR_of_step hs
  cases hs with
  | request r ctx d ref kind ns name payload id hc =>
    have hd := hctx ctx d ref (by assumption) (by rintro d' rfl; exact he)
    refine ⟨h1, h2, h3, fun r' q hq => ?_, h5⟩
    rcases upd_some hq with ⟨rfl, rfl⟩ | ⟨_, hq⟩
    · exact hd
    · exact h4 r' q hq
  | emit ctx d ref ns name payload id hc =>
    have hd := hctx ctx d ref (by assumption) (by rintro d' rfl; exact he)
    exact ⟨by simp [Ne.symm hd, h1], h2, h3, h4, h5⟩
  | _ =>
    simp only [elsewhere] at he
    refine ⟨?_, ?_, ?_, ?_, ?_⟩
    all_goals try simp only [upd_apply]
    all_goals grind

section
variable {CA CB : Type} {ca : Config CA} {cb : Config CB} {linked : Nat → Bool} {LR LL : Nat → Link}

/-- A step of the stack does not concern connection `c`. -/
def stackElsewhere (c : Nat) : Stack.Op LR LL → Prop
  | .left p | .right p => elsewhere c p
  | .readR d | .readL d => d ≠ c
  | _ => True

theorem unused_step {c : Nat} {s s' : Stack.St CA CB LR LL} {o : Stack.Op LR LL} (ha : Unused c s.sys.a) (hb : Unused c s.sys.b)
    (he : stackElsewhere c o)
    (hs : Stack.step ca cb linked LR LL s o = some s') : Unused c s'.sys.a ∧ Unused c s'.sys.b := by
  cases o with
  | left p =>
    simp only [Stack.step] at hs
    split at hs
    · obtain ⟨a, h1, hs⟩ := Option.bind_eq_some_iff.1 hs
      have h2 := ha.step he h1
      split at hs
      · split at hs
        · obtain ⟨l, hl, rfl⟩ := Option.map_eq_some_iff.1 hs; exact ⟨h2, hb⟩
        · cases hs; exact ⟨h2, hb⟩
      · cases hs; exact ⟨h2, hb⟩
    · cases hs
  | right p =>
    simp only [Stack.step] at hs
    split at hs
    · obtain ⟨a, h1, hs⟩ := Option.bind_eq_some_iff.1 hs
      have h2 := hb.step he h1
      split at hs
      · split at hs
        · obtain ⟨l, hl, rfl⟩ := Option.map_eq_some_iff.1 hs; exact ⟨ha, h2⟩
        · cases hs; exact ⟨ha, h2⟩
      · cases hs; exact ⟨ha, h2⟩
    · cases hs
  | linkR d x =>
    simp only [Stack.step] at hs
    obtain ⟨l, hl, rfl⟩ := Option.map_eq_some_iff.1 hs; exact ⟨ha, hb⟩
  | linkL d x =>
    simp only [Stack.step] at hs
    obtain ⟨l, hl, rfl⟩ := Option.map_eq_some_iff.1 hs; exact ⟨ha, hb⟩
  | readR d =>
    simp only [Stack.step] at hs
    split at hs
    · split at hs
      · obtain ⟨b, h1, rfl⟩ := Option.map_eq_some_iff.1 hs; exact ⟨ha, hb.step (o := .arrive _ _) he h1⟩
      · cases hs
    · cases hs
  | readL d =>
    simp only [Stack.step] at hs
    split at hs
    · split at hs
      · obtain ⟨b, h1, rfl⟩ := Option.map_eq_some_iff.1 hs; exact ⟨ha.step (o := .arrive _ _) he h1, hb⟩
      · cases hs
    · cases hs

theorem unused_run {c : Nat} {s s' : Stack.St CA CB LR LL} {ops : List (Stack.Op LR LL)} (ha : Unused c s.sys.a) (hb : Unused c s.sys.b)
    (he : ∀ o ∈ ops, stackElsewhere c o) (hs : Stack.run ca cb linked LR LL s ops = some s') : Unused c s'.sys.a ∧ Unused c s'.sys.b := by
  induction ops generalizing s with
  | nil => cases hs; exact ⟨ha, hb⟩
  | cons o ops ih =>
    simp only [Stack.run, Option.bind_eq_some_iff] at hs
    obtain ⟨y, h1, h2⟩ := hs
    obtain ⟨h3, h4⟩ := unused_step ha hb (he o (by simp)) h1
    exact ih h3 h4 (fun o ho => he o (by simp [ho])) h2

end

theorem carriable_before {CA CB : Type} {ca : Config CA} {cb : Config CB} {linked : Nat → Bool} {LR LL : Nat → Link} {carR carL : Nat → Event → Prop}
    {σ : Nat → Stack.St CA CB LR LL} {op : Nat → Option (Stack.Op LR LL)} (E : Execution (Stack.step ca cb linked LR LL) (Stack.init LR LL) σ op)
    {n m : Nat} (h : n ≤ m) (hc : Stack.Carriable linked carR carL (σ m)) : Stack.Carriable linked carR carL (σ n) := by
  induction h with
  | refl => exact hc
  | @step m _ ih =>
    rcases Stack.exec_step E m with ⟨h, -⟩ | ⟨o, -, h⟩
    · rw [h] at hc; exact ih hc
    · exact ih (Stack.carriable_back h hc)

theorem stack_run_append {CA CB : Type} {ca : Config CA} {cb : Config CB} {linked : Nat → Bool} {LR LL : Nat → Link} {s s' : Stack.St CA CB LR LL}
    {a b : List (Stack.Op LR LL)} (h : Stack.run ca cb linked LR LL s (a ++ b) = some s') :
    ∃ m, Stack.run ca cb linked LR LL s a = some m ∧ Stack.run ca cb linked LR LL m b = some s' := by
  induction a generalizing s with
  | nil => exact ⟨s, rfl, h⟩
  | cons o a ih =>
    simp only [List.cons_append, Stack.run, Option.bind_eq_some_iff] at h ⊢
    obtain ⟨y, h1, h2⟩ := h
    obtain ⟨m, h3, h4⟩ := ih h2
    exact ⟨m, ⟨y, h1, h3⟩, h4⟩

/-- The hypotheses of C71 can be met: a fair execution over an encrypted and a plain connection in which two requests are pending at the same time, with the bytes of
one of them half delivered, and nothing ever comes between them and their answers. -/
theorem demo_fair_stack : ∃ (σ : Nat → DemoSt) (op : Nat → Option DemoOp) (q q' : Req), FairStack demo demo (fun _ => true) demoKind demoKind true σ op ∧
    (∀ m, AllCarried (fun _ => true) demoKind demoKind (σ m)) ∧ (∀ m, System.DistinctIds (σ m).sys) ∧
    (σ 8).sys.a.reqs 0 = some q ∧ q.kind = .single ∧ q.event.referenceId = none ∧ q.phase = .waiting ∧
    (σ 8).sys.a.reqs 1 = some q' ∧ q'.kind = .single ∧ q'.event.referenceId = none ∧ q'.phase = .waiting ∧ (σ 8).sys.b.arrived 0 = [] ∧ (σ 8).sys.b.arrived 1 = [] ∧
    ∀ m, ¬ GivenUp (σ m).sys 0 q ∧ ¬ GivenUp (σ m).sys 1 q' := by
  obtain ⟨s, hs, l1, l2, l3, l4, l5, l6, l7, l8, c1, c2, c3, c4⟩ := demo_stack_end
  have hu : ∀ c, s.sys.a.out (c + 2) = [] ∧ s.sys.b.out (c + 2) = [] := by
      intro c
      have h0 : Unused (c + 2) ({} : State Nat) := ⟨rfl, rfl, rfl, by simp, by simp⟩
      obtain ⟨h1, h2⟩ := unused_run h0 h0 (by
        simp only [opsStackOut, opsStack, List.cons_append, List.nil_append, List.forall_mem_cons, stackElsewhere, elsewhere]; simp) hs
      exact ⟨h1.out, h2.out⟩
  have hc : AllCarried (fun _ => true) demoKind demoKind s := by
    rintro (_ | _ | c) _
    · exact ⟨c1, c3⟩
    · exact ⟨c2, c4⟩
    · rw [(hu c).1, (hu c).2]; simp
  obtain ⟨hsys, -⟩ := stack_sys_run (carR := fun c => (demoKind c).carries) (carL := fun c => (demoKind c).carries) (fun c _ => C57_faithful (demoKind c) true)
    (fun c _ => C57_faithful (demoKind c) true) Stack.inv_init hs hc
  have hinv := Stack.inv (s := s) ⟨_, hs⟩
  generalize hx : s.sys = x at *
  obtain ⟨f1, ⟨qa, f2, f2'⟩, ⟨qb, f3, f3'⟩, f4, f5, f6, ⟨ka, ba, f7, f7'⟩, ⟨kb, bb, f8, f8'⟩, f9, f10, f11⟩ :
      (∀ c, x.a.inbox c = [] ∧ x.b.inbox c = [] ∧ x.a.loop c = .idle ∧ x.b.loop c = .idle ∧ (x.a.out c).map (·.event) = x.b.arrived c ∧
        (x.b.out c).map (·.event) = x.a.arrived c) ∧
      (∃ q, x.a.reqs 0 = some q ∧ q.phase = .finished .replied) ∧ (∃ q, x.a.reqs 1 = some q ∧ q.phase = .finished .replied) ∧
      (∀ r, x.a.reqs (r + 2) = none) ∧ (∀ r, x.b.reqs r = none) ∧ (∀ t, x.a.tasks t = none) ∧
      (∃ k b, x.b.tasks 3 = some k ∧ k.phase = .cleaning (.ok b) true) ∧ (∃ k b, x.b.tasks 4 = some k ∧ k.phase = .cleaning (.ok b) true) ∧
      (x.b.tasks 0 = none ∧ x.b.tasks 1 = none ∧ x.b.tasks 2 = none) ∧ (∀ t, x.b.tasks (t + 5) = none) ∧
      x.a.created ++ x.b.created = [7, 8, 101, 102] := by
    cases hsys
    refine ⟨?_, ⟨_, rfl, rfl⟩, ⟨_, rfl, rfl⟩, fun r => rfl, fun r => rfl, fun t => rfl, ⟨_, _, rfl, rfl⟩, ⟨_, _, rfl, rfl⟩, ⟨rfl, rfl, rfl⟩, fun t => rfl, rfl⟩
    rintro (_ | _ | c)
    all_goals exact ⟨rfl, rfl, rfl, rfl, rfl, rfl⟩
  have ha : Resting x.a := by
    refine ⟨fun c => (f1 c).1, fun c r e h => (by rw [(f1 c).2.2.1] at h; cases h), ?_, fun t k h => (by rw [f6] at h; cases h)⟩
    rintro (_ | _ | r) q hq
    · rw [f2] at hq; cases hq; exact .inr ⟨_, f2'⟩
    · rw [f3] at hq; cases hq; exact .inr ⟨_, f3'⟩
    · rw [f4] at hq; cases hq
  have tb : ∀ t k, x.b.tasks t = some k → ∃ b, k.phase = .cleaning (.ok b) true := by
    rintro (_ | _ | _ | _ | _ | t) k hk
    · rw [f9.1] at hk; cases hk
    · rw [f9.2.1] at hk; cases hk
    · rw [f9.2.2] at hk; cases hk
    · rw [f7] at hk; cases hk; exact ⟨_, f7'⟩
    · rw [f8] at hk; cases hk; exact ⟨_, f8'⟩
    · rw [f10] at hk; cases hk
  have hb : Resting x.b := by
    refine ⟨fun c => (f1 c).2.1, fun c r e h => (by rw [(f1 c).2.2.2.1] at h; cases h), fun r q h => (by rw [f5] at h; cases h), fun t k hk => ?_⟩
    obtain ⟨b, h⟩ := tb t k hk
    rw [h]; exact ⟨by simp, by simp⟩
  subst hx
  have F : FairStack demo demo (fun _ => true) demoKind demoKind true (walk (Stack.step demo demo (fun _ => true) _ _) (Stack.init _ _) opsStackOut) (fun n => opsStackOut[n]?) := by
    refine fairStack_walk hs ha hb ?_ ?_ ?_ ?_
    · rintro (_ | _ | c) o l h
      · exact crypt_quiet l1 l2 h
      · exact plain_quiet l5 l6 h
      · have hh := hinv.right (c + 2) rfl
        obtain ⟨g1, g2⟩ := plain_unused hh (by rw [(hu c).1]; rfl)
        exact plain_quiet g1 (by rw [g2]; exact Nat.zero_le _) h
    · rintro (_ | _ | c) o l h
      · exact crypt_quiet l3 l4 h
      · exact plain_quiet l7 l8 h
      · have hh := hinv.left (c + 2) rfl
        obtain ⟨g1, g2⟩ := plain_unused hh (by rw [(hu c).2]; rfl)
        exact plain_quiet g1 (by rw [g2]; exact Nat.zero_le _) h
    · intro c _
      have hh := hinv.right c rfl
      rw [← (f1 c).2.2.2.2.1] at hh
      exact read_none (C57_faithful (demoKind c) true) hh (by
        intro e he
        obtain ⟨y, hy, rfl⟩ := List.mem_map.1 he
        exact (hc c rfl).1 y hy)
    · intro c _
      have hh := hinv.left c rfl
      rw [← (f1 c).2.2.2.2.2] at hh
      exact read_none (C57_faithful (demoKind c) true) hh (by
        intro e he
        obtain ⟨y, hy, rfl⟩ := List.mem_map.1 he
        exact (hc c rfl).2 y hy)
  have hend : ∀ m, opsStackOut.length ≤ m → walk (Stack.step demo demo (fun _ => true) _ _) (Stack.init _ _) opsStackOut m = s :=
    fun m hm => walk_rest (stack_chain hs) hm
  have hcar : ∀ m, AllCarried (fun _ => true) demoKind demoKind (walk (Stack.step demo demo (fun _ => true) _ _) (Stack.init _ _) opsStackOut m) := by
    intro m
    refine carriable_before (carR := fun c => (demoKind c).carries) (carL := fun c => (demoKind c).carries) F.run (show m ≤ max m opsStackOut.length by omega) ?_
    rw [hend _ (by omega)]
    exact hc
  obtain ⟨s8, h8, -⟩ := stack_run_append (a := opsStackOut.take 8) (b := opsStackOut.drop 8) (by rw [List.take_append_drop]; exact hs)
  have w8 : walk (Stack.step demo demo (fun _ => true) _ _) (Stack.init _ _) opsStackOut 8 = s8 := by
    have := walk_append (stack_chain h8) (opsStackOut.drop 8)
    rw [List.take_append_drop] at this
    exact this
  have hsys8 := (stack_sys_run (carR := fun c => (demoKind c).carries) (carL := fun c => (demoKind c).carries) (fun c _ => C57_faithful (demoKind c) true)
    (fun c _ => C57_faithful (demoKind c) true) Stack.inv_init h8 (by have := hcar 8; rw [w8] at this; exact this)).1
  obtain ⟨q, q', g1, g2, g3, g4, g5, g6, g7, g8, g9, g10⟩ : ∃ q q', s8.sys.a.reqs 0 = some q ∧ q.kind = .single ∧ q.event.referenceId = none ∧ q.phase = .waiting ∧
      s8.sys.a.reqs 1 = some q' ∧ q'.kind = .single ∧ q'.event.referenceId = none ∧ q'.phase = .waiting ∧ s8.sys.b.arrived 0 = [] ∧ s8.sys.b.arrived 1 = [] := by
    generalize s8.sys = y at hsys8
    cases hsys8
    exact ⟨_, _, rfl, rfl, rfl, rfl, rfl, rfl, rfl, rfl, rfl, rfl⟩
  rw [← w8] at g1 g5 g9 g10
  have FS := C71_refines F hcar
  refine ⟨_, _, q, q', F, hcar, fun m => ?_, g1, g2, g3, g4, g5, g6, g7, g8, g9, g10, fun m => ?_⟩
  · have h1 := (exec_ext (System.exec_left FS.run) (show m ≤ max m opsStackOut.length by omega)).created
    have h2 := (exec_ext (System.exec_left (System.fairSys_swap FS).run) (show m ≤ max m opsStackOut.length by omega)).created
    simp only [System.Sys.swap] at h1 h2
    rw [hend (max m opsStackOut.length) (by omega)] at h1 h2
    have h3 : (s.sys.a.created ++ s.sys.b.created).Nodup := by rw [f11]; decide +kernel
    exact h3.sublist (h1.sublist.append h2.sublist)
  · have no : ∀ r q, (∃ q', s.sys.a.reqs r = some q' ∧ q'.phase = .finished .replied) → ¬ GivenUp s.sys r q := by
      rintro r q ⟨q', h1, h2⟩ (⟨q'', hq'', hp⟩ | hm | hm | ⟨t, k, hk, _, _, hm⟩)
      · rw [h1] at hq''; cases hq''; rw [h2] at hp; simp at hp
      · exact hm fun l h => by rw [(f1 _).2.2.1] at h; cases h
      · exact hm fun l h => by rw [(f1 _).2.2.2.1] at h; cases h
      · obtain ⟨b, h⟩ := tb t k hk
        exact hm ⟨by rw [h]; simp, fun res => by rw [h]; simp⟩
    constructor
    · intro hm
      have hm := givenUp_later FS.run (show m ≤ max m opsStackOut.length by omega) hm
      rw [hend (max m opsStackOut.length) (by omega)] at hm
      exact no 0 q ⟨qa, f2, f2'⟩ hm
    · intro hm
      have hm := givenUp_later FS.run (show m ≤ max m opsStackOut.length by omega) hm
      rw [hend (max m opsStackOut.length) (by omega)] at hm
      exact no 1 q' ⟨qb, f3, f3'⟩ hm

end Bromine.Props
