import Verif.Model.Assembly
/-
The invariant of Model/Assembly.lean.
-/
namespace Bromine.Assembly

set_option linter.unusedSectionVars false

section
variable {CB Addr Opts K V : Type} [DecidableEq K]

/-- What a connection has. -/
structure ConnOk (b : IPCBuilder CB Addr Opts) (client : Bool) (p : Proc CB K V) (cn : Conn CB) : Prop where
  data : cn.ctx.data = 0
  stream : cn.ctx.stream + 1 < p.next
  stop : cn.ctx.stopSender = cn.ctx.stream + 1
  listeners : cn.ctx.replyListeners = if client then 1 else cn.ctx.stream + 2
  low : cn.ctx.replyListeners < p.next
  timeout : cn.ctx.replyTimeout = b.timeoutMs
  serializer : cn.ctx.serializer = b.defaultSerializer
  refId : cn.ctx.refId = none
  global : cn.global = b.handler
  namespaces : cn.namespaces = b.namespaces
  sender : p.sender cn.ctx.stopSender = (client && !decide (cn.ctx.stream ∈ p.stopCalls))

/-- The context belongs to the connection. -/
def Of (c : Ctx) (cn : Conn CB) : Prop :=
  c.stream = cn.ctx.stream ∧ c.data = cn.ctx.data ∧ c.stopSender = cn.ctx.stopSender ∧ c.replyListeners = cn.ctx.replyListeners

structure Inv (b : IPCBuilder CB Addr Opts) (client : Bool) (p : Proc CB K V) : Prop where
  listening : p.listening = if client then none else some ⟨b.handler, b.namespaces, 0, b.timeoutMs, b.defaultSerializer⟩
  next : 1 ≤ p.next
  next' : client = true → 2 ≤ p.next
  conns : ∀ cn ∈ p.conns, ConnOk b client p cn
  apart : p.conns.Pairwise fun a b => a.ctx.stream + 1 < b.ctx.stream
  ctxs : ∀ h c, p.ctxs h = some c → ∃ cn ∈ p.conns, Of c cn
  calls : ∀ x ∈ p.stopCalls, x < p.next

theorem inv_init_client (b : IPCBuilder CB Addr Opts) (d : TypeMap K V) : Inv b true ({ Proc.init d with next := 2 } : Proc CB K V) where
  listening := rfl
  next := by simp
  next' := by simp
  conns := by simp [Proc.init]
  apart := by simp [Proc.init]
  ctxs := by simp [Proc.init]
  calls := by simp [Proc.init]

theorem inv_init_server (b : IPCBuilder CB Addr Opts) (d : TypeMap K V) :
    Inv b false ({ Proc.init d with listening := some ⟨b.handler, b.namespaces, 0, b.timeoutMs, b.defaultSerializer⟩ } : Proc CB K V) where
  listening := rfl
  next := by simp [Proc.init]
  next' := by simp
  conns := by simp [Proc.init]
  apart := by simp [Proc.init]
  ctxs := by simp [Proc.init]
  calls := by simp [Proc.init]

theorem inv_give {b : IPCBuilder CB Addr Opts} {client : Bool} {p : Proc CB K V} (hi : Inv b client p) {h : Nat} {c : Ctx} {cn : Conn CB}
    (hm : cn ∈ p.conns) (ho : Of c cn) : Inv b client (p.give h c) where
  listening := hi.listening
  next := hi.next
  next' := hi.next'
  conns := fun cn hc => let ⟨a1, a2, a3, a4, a5, a6, a7, a8, a9, a10, a11⟩ := hi.conns cn hc; ⟨a1, a2, a3, a4, a5, a6, a7, a8, a9, a10, a11⟩
  apart := hi.apart
  ctxs := by
    intro h' c' hc
    simp only [Proc.give] at hc
    split at hc
    · cases hc; exact ⟨cn, hm, ho⟩
    · exact hi.ctxs h' c' hc
  calls := hi.calls

/-- A connection is added. -/
theorem inv_add {b : IPCBuilder CB Addr Opts} {client : Bool} {p : Proc CB K V} (hi : Inv b client p) {n : Nat} {sender : Nat → Bool} {cn : Conn CB}
    (hn : p.next + 2 ≤ n) (hs : ∀ a, a < p.next → sender a = p.sender a) (hst : cn.ctx.stream = p.next) (hd : cn.ctx.data = 0) (hst' : cn.ctx.stopSender = p.next + 1)
    (hl : cn.ctx.replyListeners = if client then 1 else p.next + 2) (hl' : cn.ctx.replyListeners < n) (ht : cn.ctx.replyTimeout = b.timeoutMs)
    (hser : cn.ctx.serializer = b.defaultSerializer) (hr : cn.ctx.refId = none) (hg : cn.global = b.handler) (hns : cn.namespaces = b.namespaces)
    (hsend : sender (p.next + 1) = client) :
    Inv b client { p with next := n, sender := sender, conns := p.conns ++ [cn] } where
  listening := hi.listening
  next := by have := hi.next; show 1 ≤ n; omega
  next' := by intro _; have := hi.next; show 2 ≤ n; omega
  conns := by
    intro cn' hc
    simp only [List.mem_append, List.mem_singleton] at hc
    rcases hc with hc | rfl
    · obtain ⟨a1, a2, a3, a4, a5, a6, a7, a8, a9, a10, a11⟩ := hi.conns cn' hc
      refine ⟨a1, by show _ < n; omega, a3, a4, by show _ < n; omega, a6, a7, a8, a9, a10, ?_⟩
      show sender _ = _
      rw [hs _ (by rw [a3]; exact a2)]
      exact a11
    · refine ⟨hd, by show _ < n; omega, by rw [hst', hst], by rw [hl, hst], hl', ht, hser, hr, hg, hns, ?_⟩
      show sender _ = _
      rw [hst', hst, hsend]
      have : p.next ∉ p.stopCalls := fun h => Nat.lt_irrefl _ (hi.calls _ h)
      simp [this]
  apart := by
    refine List.pairwise_append.2 ⟨hi.apart, by simp, ?_⟩
    intro a ha b' hb'
    rw [List.mem_singleton] at hb'
    subst hb'
    rw [hst]
    exact (hi.conns a ha).stream
  ctxs := by
    intro h c hc
    obtain ⟨cn', hm, ho⟩ := hi.ctxs h c hc
    exact ⟨cn', by simp [hm], ho⟩
  calls := by intro x hx; have := hi.calls x hx; show x < n; omega

theorem inv_connect {b : IPCBuilder CB Addr Opts} {p : Proc CB K V} (hi : Inv b true p) (h : Nat) :
    Inv b true (((p.connect ⟨b.handler, b.namespaces, 0, 1, b.timeoutMs, b.defaultSerializer⟩).1).give h
      (p.connect ⟨b.handler, b.namespaces, 0, 1, b.timeoutMs, b.defaultSerializer⟩).2) := by
  refine inv_give (cn := ⟨(p.connect ⟨b.handler, b.namespaces, 0, 1, b.timeoutMs, b.defaultSerializer⟩).2, b.handler, b.namespaces⟩) ?_ ?_ ⟨rfl, rfl, rfl, rfl⟩
  · refine inv_add hi (Nat.le_refl _) ?_ rfl rfl rfl rfl ?_ rfl rfl rfl rfl rfl (by simp)
    · intro a ha
      rw [if_neg (by omega)]
    · have := hi.next' rfl
      show 1 < p.next + 2
      omega
  · simp [Proc.connect]

theorem inv_poolLoop {b : IPCBuilder CB Addr Opts} (net : Nat → Outcome Unit) : ∀ (n i : Nat) (p p' : Proc CB K V), Inv b true p →
    poolLoop ⟨b.handler, b.namespaces, 0, 1, b.timeoutMs, b.defaultSerializer⟩ net n i p = .ok p' → Inv b true p' := by
  intro n
  induction n with
  | zero => intro i p p' hi hr; cases hr; exact hi
  | succ n ih =>
    intro i p p' hi hr
    simp only [poolLoop] at hr
    split at hr <;> try cases hr
    exact ih _ _ _ (inv_connect hi i) hr

theorem inv_step {b : IPCBuilder CB Addr Opts} {client : Bool} {p p' : Proc CB K V} {op : Op K V} (hi : Inv b client p) (hs : step p op = some p') : Inv b client p' := by
  cases op with
  | accept =>
    simp only [step, hi.listening] at hs
    cases client with
    | true => simp at hs
    | false =>
      simp only [Bool.false_eq_true, if_false, Option.some.injEq] at hs
      subst hs
      have hl := hi.listening
      simp only [Bool.false_eq_true, if_false] at hl
      rw [← hl]
      refine inv_add (n := p.next + 3) (sender := fun a => if a = p.next + 1 then false else p.sender a)
        (cn := ⟨Ctx.new p.next 0 (p.next + 1) (p.next + 2) b.timeoutMs b.defaultSerializer, b.handler, b.namespaces⟩) hi (by omega) ?_ rfl rfl rfl rfl
        (by show p.next + 2 < p.next + 3; omega) rfl rfl rfl rfl rfl (by simp)
      intro a ha
      rw [if_neg (by omega)]
  | event c h id =>
    simp only [step] at hs
    split at hs <;> try cases hs
    rename_i cn hc _
    exact inv_give hi (List.mem_of_getElem? hc) ⟨rfl, rfl, rfl, rfl⟩
  | clone h new =>
    simp only [step] at hs
    split at hs <;> try cases hs
    rename_i c hc _
    obtain ⟨cn, hm, ho⟩ := hi.ctxs h c hc
    exact inv_give hi hm ho
  | setTimeout h ms =>
    simp only [step] at hs
    split at hs <;> try cases hs
    rename_i c hc
    obtain ⟨cn, hm, ho⟩ := hi.ctxs h c hc
    exact inv_give hi hm ho
  | setSerializer h f =>
    simp only [step] at hs
    split at hs <;> try cases hs
    rename_i c hc
    obtain ⟨cn, hm, ho⟩ := hi.ctxs h c hc
    exact inv_give hi hm ho
  | write h k v =>
    simp only [step] at hs
    split at hs <;> try cases hs
    exact ⟨hi.listening, hi.next, hi.next', fun cn hc => let ⟨a1, a2, a3, a4, a5, a6, a7, a8, a9, a10, a11⟩ := hi.conns cn hc; ⟨a1, a2, a3, a4, a5, a6, a7, a8, a9, a10, a11⟩, hi.apart, hi.ctxs, hi.calls⟩
  | drop h =>
    simp only [step] at hs
    split at hs <;> try cases hs
    refine ⟨hi.listening, hi.next, hi.next', fun cn hc => let ⟨a1, a2, a3, a4, a5, a6, a7, a8, a9, a10, a11⟩ := hi.conns cn hc; ⟨a1, a2, a3, a4, a5, a6, a7, a8, a9, a10, a11⟩, hi.apart, ?_, hi.calls⟩
    intro h' c hc
    simp only at hc
    split at hc <;> try cases hc
    exact hi.ctxs h' c hc
  | stop h =>
    simp only [step] at hs
    split at hs <;> try cases hs
    rename_i c hc
    obtain ⟨cn, hm, ho⟩ := hi.ctxs h c hc
    have hcn := hi.conns cn hm
    refine ⟨hi.listening, hi.next, hi.next', ?_, hi.apart, ?_, ?_⟩
    · intro cn' hm'
      obtain ⟨a1, a2, a3, a4, a5, a6, a7, a8, a9, a10, a11⟩ := hi.conns cn' hm'
      refine ⟨a1, a2, a3, a4, a5, a6, a7, a8, a9, a10, ?_⟩
      show (if cn'.ctx.stopSender = c.stopSender then false else p.sender cn'.ctx.stopSender) = (client && !decide (cn'.ctx.stream ∈ p.stopCalls ++ [c.stream]))
      have e : (cn'.ctx.stopSender = c.stopSender) ↔ cn'.ctx.stream = c.stream := by
        rw [a3, ho.2.2.1, hcn.stop, ho.1]; omega
      by_cases hq : cn'.ctx.stream = c.stream
      · rw [if_pos (e.2 hq)]; simp [hq]
      · rw [if_neg (fun x => hq (e.1 x)), a11]; simp [hq]
    · intro h' c' hc'
      simp only at hc'
      split at hc' <;> try cases hc'
      exact hi.ctxs h' c' hc'
    · intro x hx
      simp only [List.mem_append, List.mem_singleton] at hx
      rcases hx with hx | rfl
      · exact hi.calls x hx
      · show c.stream < p.next
        rw [ho.1]; have := hcn.stream; omega

theorem inv_run {b : IPCBuilder CB Addr Opts} {client : Bool} : ∀ (ops : List (Op K V)) (p p' : Proc CB K V), Inv b client p → run p ops = some p' → Inv b client p' := by
  intro ops
  induction ops with
  | nil => intro p p' hi hr; cases hr; exact hi
  | cons op ops ih =>
    intro p p' hi hr
    simp only [run, Option.bind_eq_some_iff] at hr
    obtain ⟨m, hm, hr⟩ := hr
    exact ih m p' (inv_step hi hm) hr

theorem run_append (ops ops' : List (Op K V)) (p : Proc CB K V) : run p (ops ++ ops') = (run p ops).bind fun p => run p ops' := by
  induction ops generalizing p with
  | nil => rfl
  | cons op ops ih =>
    simp only [List.cons_append, run]
    cases step p op with
    | none => rfl
    | some m => simp [ih]

theorem run_concat (ops : List (Op K V)) (op : Op K V) (p : Proc CB K V) : run p (ops ++ [op]) = (run p ops).bind fun p => step p op := by
  rw [run_append]
  congr 1
  funext p
  simp [run]

/-- Induction on the steps made. -/
theorem run_ind {p0 : Proc CB K V} (P : List (Op K V) → Proc CB K V → Prop) (h0 : P [] p0)
    (h1 : ∀ pre p op p', run p0 pre = some p → P pre p → step p op = some p' → P (pre ++ [op]) p') : ∀ ops p, run p0 ops = some p → P ops p := by
  intro ops
  rw [← List.reverse_reverse ops]
  induction ops.reverse with
  | nil => intro p hr; cases hr; exact h0
  | cons op l ih =>
    intro p hr
    rw [List.reverse_cons, run_concat] at hr
    cases hm : run p0 l.reverse with
    | none => rw [hm] at hr; cases hr
    | some m =>
      rw [hm] at hr
      rw [List.reverse_cons]
      exact h1 _ m op p hm (ih m hm) hr

end
end Bromine.Assembly
