import Verif.Lemmas.Assembly
import Verif.Props.Builder
import Verif.Props.Dispatch
/-
C66: settings and sharing of the contexts that the build functions make. C67: data shared through contexts.
-/
namespace Bromine.Props
open Bromine Bromine.Assembly

set_option linter.unusedSectionVars false

section
variable {CB Addr Opts K V : Type} [DecidableEq K]

/-- The builder after some calls. -/
def assembled (e : CB) (f : Format) (d : Opts) (bops : List (BOp CB Addr Opts K V)) : Builder CB Addr Opts K V :=
  bops.foldl Builder.apply (Builder.new e f d)

/-- The calls that do not concern data. -/
def baseCalls (bops : List (BOp CB Addr Opts K V)) : List (BuilderOp CB Addr Opts) :=
  bops.filterMap fun | .base op => some op | _ => none

/-- The process `p0` was made by `build_client` or `build_pooled_client` (`client`), or by `build_server` (not `client`). -/
def MadeBy (b : Builder CB Addr Opts K V) (client : Bool) (p0 : Proc CB K V) : Prop :=
  if client then (∃ net, b.buildClient net = .ok p0) ∨ ∃ n net, b.buildPooledClient n net = .ok p0
  else ∃ net, b.buildServer net = .ok p0

theorem assembled_base (e : CB) (f : Format) (d : Opts) (bops : List (BOp CB Addr Opts K V)) :
    (assembled e f d bops).base = built e f d (baseCalls bops) := by
  induction bops using list_reverse_ind with
  | h0 => rfl
  | h1 bops op ih =>
    have h : assembled e f d (bops ++ [op]) = (assembled e f d bops).apply op := by simp [assembled]
    have h' : baseCalls (bops ++ [op]) = baseCalls bops ++ baseCalls [op] := by simp [baseCalls]
    rw [h, h']
    cases op with
    | base op => rw [show baseCalls [BOp.base op] = [op] from rfl, built_concat, ← ih]; rfl
    | insert k v => rw [show baseCalls [BOp.insert k v] = [] from rfl, List.append_nil, ← ih]; rfl
    | insertAll l => rw [show baseCalls [BOp.insertAll l] = [] from rfl, List.append_nil, ← ih]; rfl

theorem madeBy_inv {b : Builder CB Addr Opts K V} {client : Bool} {p0 : Proc CB K V} (h : MadeBy b client p0) : Inv b.base client p0 := by
  cases client with
  | true =>
    simp only [MadeBy, if_true] at h
    rcases h with ⟨net, h⟩ | ⟨n, net, h⟩
    · unfold Builder.buildClient at h
      split at h <;> try cases h
      exact inv_connect (inv_init_client b.base b.data) 0
    · unfold Builder.buildPooledClient at h
      split at h
      · cases h
      · split at h <;> try cases h
        split at h
        · cases h
        · exact inv_poolLoop net _ _ _ _ (inv_init_client b.base b.data) h
  | false =>
    simp only [MadeBy, Bool.false_eq_true, if_false] at h
    obtain ⟨net, h⟩ := h
    unfold Builder.buildServer at h
    split at h <;> try cases h
    exact inv_init_server b.base b.data

theorem poolLoop_ctxs {cl : Client CB} (net : Nat → Outcome Unit) : ∀ (n i : Nat) (p p' : Proc CB K V), poolLoop cl net n i p = .ok p' →
    (∀ h c, p.ctxs h = some c → c.replyTimeout = cl.timeoutMs ∧ c.serializer = cl.serializer) →
    ∀ h c, p'.ctxs h = some c → c.replyTimeout = cl.timeoutMs ∧ c.serializer = cl.serializer := by
  intro n
  induction n with
  | zero => intro i p p' hr h0; cases hr; exact h0
  | succ n ih =>
    intro i p p' hr h0
    simp only [poolLoop] at hr
    split at hr <;> try cases hr
    refine ih _ _ _ hr ?_
    intro h c hc
    simp only [Proc.give, Proc.connect] at hc
    split at hc
    · cases hc; exact ⟨rfl, rfl⟩
    · exact h0 h c hc

theorem madeBy_settings {b : Builder CB Addr Opts K V} {client : Bool} {p0 : Proc CB K V} (h : MadeBy b client p0) :
    ∀ h c, p0.ctxs h = some c → c.replyTimeout = b.base.timeoutMs ∧ c.serializer = b.base.defaultSerializer := by
  cases client with
  | true =>
    simp only [MadeBy, if_true] at h
    rcases h with ⟨net, h⟩ | ⟨n, net, h⟩
    · unfold Builder.buildClient at h
      split at h <;> try cases h
      intro h c hc
      simp only [Proc.give, Proc.connect, Proc.init] at hc
      split at hc <;> cases hc
      exact ⟨rfl, rfl⟩
    · unfold Builder.buildPooledClient at h
      split at h
      · cases h
      · split at h <;> try cases h
        split at h
        · cases h
        · exact poolLoop_ctxs net _ _ _ _ h (by simp [Proc.init])
  | false =>
    simp only [MadeBy, Bool.false_eq_true, if_false] at h
    obtain ⟨net, h⟩ := h
    unfold Builder.buildServer at h
    split at h <;> try cases h
    intro h c hc
    simp [Proc.init] at hc

/-- **C66.** Whatever was called on the builder, and whatever happened since: as long as nobody has assigned to the field `default_reply_timeout` of a context, every context, of the user or of a handler,
has the timeout given last to the builder, 60 s if none was given; and likewise for the default serializer, which is the first available format if none was given. -/
theorem C66_settings (e : CB) (f : Format) (d : Opts) (bops : List (BOp CB Addr Opts K V)) (client : Bool) (p0 p : Proc CB K V)
    (hm : MadeBy (assembled e f d bops) client p0) (ops : List (Assembly.Op K V)) (hr : Assembly.run p0 ops = some p) (h : Nat) (c : Ctx) (hc : p.ctxs h = some c) :
    ((∀ h t, Assembly.Op.setTimeout h t ∉ ops) → c.replyTimeout = (timeoutCalls (baseCalls bops)).getLast?.getD 60000) ∧
    ((∀ h x, Assembly.Op.setSerializer h x ∉ ops) → c.serializer = (serializerCalls (baseCalls bops)).getLast?.getD f) := by
  have hset := C30_settings e f d (baseCalls bops)
  rw [← hset.1, ← hset.2.1, ← assembled_base]
  have hi := madeBy_inv hm
  have h0 := madeBy_settings hm
  revert h c
  generalize assembled e f d bops = b at *
  apply Assembly.run_ind (fun ops p => ∀ h c, p.ctxs h = some c →
    ((∀ h t, Assembly.Op.setTimeout h t ∉ ops) → c.replyTimeout = b.base.timeoutMs) ∧ ((∀ h x, Assembly.Op.setSerializer h x ∉ ops) → c.serializer = b.base.defaultSerializer))
    ?_ ?_ ops p hr
  · intro h c hc; exact ⟨fun _ => (h0 h c hc).1, fun _ => (h0 h c hc).2⟩
  · intro pre p op p' hpre ih hs h c hc
    have hip := Assembly.inv_run pre p0 p hi hpre
    have weak : ∀ {h c}, p.ctxs h = some c →
        ((∀ h t, Assembly.Op.setTimeout h t ∉ pre ++ [op]) → c.replyTimeout = b.base.timeoutMs) ∧
        ((∀ h x, Assembly.Op.setSerializer h x ∉ pre ++ [op]) → c.serializer = b.base.defaultSerializer) := by
      intro h c hc
      exact ⟨fun hx => (ih h c hc).1 fun h t hm => hx h t (by simp [hm]), fun hx => (ih h c hc).2 fun h t hm => hx h t (by simp [hm])⟩
    cases op with
    | accept =>
      simp only [step] at hs
      split at hs <;> try cases hs
      exact weak hc
    | event cn hh id =>
      simp only [step] at hs
      split at hs <;> try cases hs
      rename_i x hx _
      simp only [Proc.give] at hc
      split at hc
      · cases hc
        have := hip.conns x (List.mem_of_getElem? hx)
        exact ⟨fun _ => this.timeout, fun _ => this.serializer⟩
      · exact weak hc
    | clone hh new =>
      simp only [step] at hs
      split at hs <;> try cases hs
      rename_i x hx _
      simp only [Proc.give] at hc
      split at hc
      · cases hc; exact weak hx
      · exact weak hc
    | setTimeout hh t =>
      simp only [step] at hs
      split at hs <;> try cases hs
      rename_i x hx
      simp only [Proc.give] at hc
      split at hc
      · cases hc
        exact ⟨fun hx => absurd (by simp) (hx hh t), (weak hx).2⟩
      · exact weak hc
    | setSerializer hh t =>
      simp only [step] at hs
      split at hs <;> try cases hs
      rename_i x hx
      simp only [Proc.give] at hc
      split at hc
      · cases hc
        exact ⟨(weak hx).1, fun hx => absurd (by simp) (hx hh t)⟩
      · exact weak hc
    | write hh k v =>
      simp only [step] at hs
      split at hs <;> try cases hs
      exact weak hc
    | stop hh =>
      simp only [step] at hs
      split at hs <;> try cases hs
      simp only at hc
      split at hc <;> try cases hc
      exact weak hc
    | drop hh =>
      simp only [step] at hs
      split at hs <;> try cases hs
      simp only at hc
      split at hc <;> try cases hc
      exact weak hc

/-- **C66.** An assignment to a setting of a context changes that setting of that context only; not that of a clone made before. -/
theorem C66_setting_local (p p' : Proc CB K V) (h : Nat) (t : Nat) (x : Format) (c : Ctx) (hc : p.ctxs h = some c) :
    (step p (.setTimeout h t) = some p' → p'.ctxs h = some { c with replyTimeout := t } ∧ (∀ h', h' ≠ h → p'.ctxs h' = p.ctxs h') ∧ p'.conns = p.conns) ∧
    (step p (.setSerializer h x) = some p' → p'.ctxs h = some { c with serializer := x } ∧ (∀ h', h' ≠ h → p'.ctxs h' = p.ctxs h') ∧ p'.conns = p.conns) := by
  constructor <;>
  · intro hs
    simp only [step, hc, Option.some.injEq] at hs
    subst hs
    refine ⟨by simp [Proc.give], ?_, rfl⟩
    intro h' hh
    simp [Proc.give, hh]

/-- The context that a step makes, changes or ends. -/
def concerns : Assembly.Op K V → Option Nat
  | .event _ h _ | .clone _ h | .setTimeout h _ | .setSerializer h _ | .stop h | .drop h => some h
  | .accept | .write _ _ _ => none

/-- **C66.** The contexts of a process are independent values. A step leaves all of them as they are except the one it makes, changes or ends: `stop` and dropping end that one only, not its clones;
a clone is equal to its original and takes no existing context's place. All but accepting are possible with any context there is, accepting exactly on a server. -/
theorem C66_handles (p : Proc CB K V) :
    (∀ op p', step p op = some p' →
      (∀ h, concerns op ≠ some h → p'.ctxs h = p.ctxs h) ∧
      (∀ h, op = .stop h ∨ op = .drop h → p.ctxs h ≠ none ∧ p'.ctxs h = none) ∧
      (∀ h n, op = .clone h n → p.ctxs n = none ∧ p.ctxs h ≠ none ∧ p'.ctxs n = p.ctxs h)) ∧
    (∀ h, p.ctxs h ≠ none → ∀ op : Assembly.Op K V, ((∃ n, p.ctxs n = none ∧ op = .clone h n) ∨ (∃ t, op = .setTimeout h t) ∨ (∃ x, op = .setSerializer h x) ∨
      (∃ k v, op = .write h k v) ∨ op = .stop h ∨ op = .drop h) → step p op ≠ none) ∧
    (step p .accept ≠ none ↔ p.listening ≠ none) := by
  refine ⟨?_, ?_, ?_⟩
  · intro op p' hs
    cases op <;> simp only [step] at hs <;> split at hs <;> simp_all only [Option.some.injEq, reduceCtorEq, concerns, Proc.give] <;> subst hs <;> refine ⟨?_, ?_, ?_⟩ <;>
      intros <;> grind
  · rintro h hh op (⟨n, hn, rfl⟩ | ⟨t, rfl⟩ | ⟨x, rfl⟩ | ⟨k, v, rfl⟩ | rfl | rfl) <;> obtain ⟨c, hc⟩ := Option.ne_none_iff_exists'.1 hh <;> simp [step, *]
  · simp only [step]
    cases p.listening <;> simp

/-- **C66.** A handler always gets a context with the settings of the builder, whatever was assigned to other contexts, that emits on the connection that the event came from, as answer to that event;
and every connection is served with the handlers and namespaces of the builder. -/
theorem C66_handler_context (e : CB) (f : Format) (d : Opts) (bops : List (BOp CB Addr Opts K V)) (client : Bool) (p0 p p' : Proc CB K V)
    (hm : MadeBy (assembled e f d bops) client p0) (ops : List (Assembly.Op K V)) (hr : Assembly.run p0 ops = some p) (conn h : Nat) (id : UInt64)
    (hs : step p (.event conn h id) = some p') :
    ∃ c cn, p'.ctxs h = some c ∧ p.conns[conn]? = some cn ∧ c.stream = cn.ctx.stream ∧ c.refId = some id ∧
      c.replyTimeout = (timeoutCalls (baseCalls bops)).getLast?.getD 60000 ∧ c.serializer = (serializerCalls (baseCalls bops)).getLast?.getD f ∧
      cn.global = (built e f d (baseCalls bops)).handler ∧ cn.namespaces = (built e f d (baseCalls bops)).namespaces := by
  have hset := C30_settings e f d (baseCalls bops)
  rw [← hset.1, ← hset.2.1, ← assembled_base]
  have hi := Assembly.inv_run ops p0 p (madeBy_inv hm) hr
  simp only [step] at hs
  split at hs <;> try cases hs
  rename_i cn hcn _
  have := hi.conns cn (List.mem_of_getElem? hcn)
  exact ⟨{ cn.ctx with refId := some id }, cn, by simp [Proc.give], hcn, rfl, rfl, this.timeout, this.serializer, this.global, this.namespaces⟩

/-- **C66.** What two contexts of a process share. They have the same data. They have the same stop sender exactly if they are of the same connection. On a client, also on a pooled one, they have
the same reply listeners; on a server, exactly if they are of the same connection. -/
theorem C66_sharing (b : Builder CB Addr Opts K V) (client : Bool) (p0 p : Proc CB K V) (hm : MadeBy b client p0) (ops : List (Assembly.Op K V))
    (hr : Assembly.run p0 ops = some p) (h h' : Nat) (c c' : Ctx) (hc : p.ctxs h = some c) (hc' : p.ctxs h' = some c') :
    c.data = c'.data ∧ (c.stopSender = c'.stopSender ↔ c.stream = c'.stream) ∧
    (c.replyListeners = c'.replyListeners ↔ (client = true ∨ c.stream = c'.stream)) := by
  have hi := Assembly.inv_run ops p0 p (madeBy_inv hm) hr
  obtain ⟨x, hx, o1, o2, o3, o4⟩ := hi.ctxs h c hc
  obtain ⟨y, hy, q1, q2, q3, q4⟩ := hi.ctxs h' c' hc'
  have hx := hi.conns x hx
  have hy := hi.conns y hy
  refine ⟨by rw [o2, q2, hx.data, hy.data], ?_, ?_⟩
  · rw [o3, q3, o1, q1, hx.stop, hy.stop]; omega
  · rw [o4, q4, o1, q1, hx.listeners, hy.listeners]
    cases client <;> simp

/-- **C66.** A stop sender is left for a connection exactly if it is one of a client, and nobody has called `stop` on a context of that connection: stopping one connection of a pool leaves the others. -/
theorem C66_stop_iff (b : Builder CB Addr Opts K V) (client : Bool) (p0 p : Proc CB K V) (hm : MadeBy b client p0) (ops : List (Assembly.Op K V))
    (hr : Assembly.run p0 ops = some p) (h : Nat) (c : Ctx) (hc : p.ctxs h = some c) :
    p.sender c.stopSender = true ↔ client = true ∧ c.stream ∉ p.stopCalls := by
  have hi := Assembly.inv_run ops p0 p (madeBy_inv hm) hr
  obtain ⟨x, hx, o1, o2, o3, o4⟩ := hi.ctxs h c hc
  rw [o3, (hi.conns x hx).sender, o1]
  simp

/-- **C66.** Different connections have different write halves. -/
theorem C66_connections_differ (b : Builder CB Addr Opts K V) (client : Bool) (p0 p : Proc CB K V) (hm : MadeBy b client p0) (ops : List (Assembly.Op K V))
    (hr : Assembly.run p0 ops = some p) (i j : Nat) (x y : Conn CB) (hx : p.conns[i]? = some x) (hy : p.conns[j]? = some y) (hs : x.ctx.stream = y.ctx.stream) : i = j := by
  have hi := Assembly.inv_run ops p0 p (madeBy_inv hm) hr
  have hp := List.pairwise_iff_getElem.1 hi.apart
  obtain ⟨hi', rfl⟩ := List.getElem?_eq_some_iff.1 hx
  obtain ⟨hj', rfl⟩ := List.getElem?_eq_some_iff.1 hy
  rcases Nat.lt_trichotomy i j with h | h | h
  · have := hp i j hi' hj' h; omega
  · exact h
  · have := hp j i hj' hi' h; omega

/-- **C66.** So the assumptions that other theorems make about listener maps and stop senders hold of what the build functions make: on a server every connection has its own listener map and no stop sender
(so C36 applies), on a client all connections share one and have stop senders. -/
theorem C66_config (b : Builder CB Addr Opts K V) (client : Bool) (p0 p : Proc CB K V) (hm : MadeBy b client p0) (ops : List (Assembly.Op K V))
    (hr : Assembly.run p0 ops = some p) (de : CB → Bool) (fmt : Error → String) :
    (client = false → ∀ c c', (p.config b.base de fmt).group c = (p.config b.base de fmt).group c' → c = c') ∧
    (client = true → ∀ c c', c < p.conns.length → c' < p.conns.length → (p.config b.base de fmt).group c = (p.config b.base de fmt).group c') ∧
    ∀ c, (p.config b.base de fmt).client c = client := by
  have hi := Assembly.inv_run ops p0 p (madeBy_inv hm) hr
  refine ⟨?_, ?_, ?_⟩
  · rintro rfl c c' hg
    simp only [Proc.config] at hg
    cases h1 : p.conns[c]? with
    | none =>
      cases h2 : p.conns[c']? with
      | none => simp only [h1, h2] at hg; omega
      | some y =>
        simp only [h1, h2] at hg
        have := (hi.conns y (List.mem_of_getElem? h2)).low
        omega
    | some x =>
      have hx := hi.conns x (List.mem_of_getElem? h1)
      cases h2 : p.conns[c']? with
      | none =>
        simp only [h1, h2] at hg
        have := hx.low
        omega
      | some y =>
        simp only [h1, h2] at hg
        have hy := hi.conns y (List.mem_of_getElem? h2)
        rw [hx.listeners, hy.listeners] at hg
        simp only [Bool.false_eq_true, if_false, Nat.add_right_cancel_iff] at hg
        exact C66_connections_differ b false p0 p hm ops hr c c' x y h1 h2 hg
  · rintro rfl c c' h1 h2
    simp only [Proc.config, List.getElem?_eq_getElem h1, List.getElem?_eq_getElem h2]
    rw [(hi.conns _ (List.getElem_mem h1)).listeners, (hi.conns _ (List.getElem_mem h2)).listeners]
    rfl
  · intro c
    simp only [Proc.config, hi.listening]
    cases client <;> rfl

/-- **C36, C66.** On every server that `build_server` makes, a request receives only events that came in on the connection on which it was emitted. -/
theorem C66_server_isolated (b : Builder CB Addr Opts K V) (p0 p : Proc CB K V) (hm : MadeBy b false p0) (ops : List (Assembly.Op K V))
    (hr : Assembly.run p0 ops = some p) (de : CB → Bool) (fmt : Error → String) {s : Endpoint.State CB} (h : Endpoint.Reachable (p.config b.base de fmt) s)
    {r : Nat} {q : Endpoint.Req} (hq : s.reqs r = some q) : ∀ e ∈ q.popped ++ q.buf, e ∈ s.arrived q.conn :=
  (C36_isolated h ((C66_config b false p0 p hm ops hr de fmt).1 rfl) hq).2

/-- The contexts that the loop of `build_pooled_client` makes. -/
theorem poolLoop_conns {cl : Client CB} (net : Nat → Outcome Unit) : ∀ (n i : Nat) (p p' : Proc CB K V), poolLoop cl net n i p = .ok p' → p.conns.length = i →
    (∀ j < i, ∃ cn, p.conns[j]? = some cn ∧ p.ctxs j = some cn.ctx) → p'.conns.length = i + n ∧ ∀ j < i + n, ∃ cn, p'.conns[j]? = some cn ∧ p'.ctxs j = some cn.ctx := by
  intro n
  induction n with
  | zero => intro i p p' hr hl h0; cases hr; exact ⟨hl, h0⟩
  | succ n ih =>
    intro i p p' hr hl h0
    simp only [poolLoop] at hr
    split at hr <;> try cases hr
    have := ih (i + 1) _ _ hr (by simp [Proc.give, Proc.connect, hl]) (by
      intro j hj
      by_cases hji : j = i
      · subst hji
        exact ⟨⟨(p.connect cl).2, cl.global, cl.namespaces⟩, by simp [Proc.give, Proc.connect, hl], by simp [Proc.give]⟩
      · obtain ⟨cn, h1, h2⟩ := h0 j (by omega)
        refine ⟨cn, ?_, by simp [Proc.give, hji]; exact h2⟩
        simp only [Proc.give, Proc.connect]
        rw [List.getElem?_append_left (by omega)]
        exact h1)
    rw [show i + (n + 1) = i + 1 + n by omega]
    exact this

/-- **C66.** `build_client` makes one connection and gives its context; `build_pooled_client(n)` makes `n` connections and gives the context of each of them. -/
theorem C66_given (b : Builder CB Addr Opts K V) (p0 : Proc CB K V) (n : Nat)
    (h : (∃ net, b.buildClient net = .ok p0) ∧ n = 1 ∨ ∃ net, b.buildPooledClient n net = .ok p0) :
    0 < n ∧ p0.conns.length = n ∧ ∀ j < n, ∃ cn, p0.conns[j]? = some cn ∧ p0.ctxs j = some cn.ctx := by
  rcases h with ⟨⟨net, h⟩, rfl⟩ | ⟨net, h⟩
  · unfold Builder.buildClient at h
    split at h <;> try cases h
    refine ⟨by omega, rfl, ?_⟩
    intro j hj
    have : j = 0 := by omega
    subst this
    exact ⟨_, rfl, rfl⟩
  · unfold Builder.buildPooledClient at h
    split at h
    · cases h
    · rename_i hn
      split at h <;> try cases h
      split at h
      · cases h
      · have := poolLoop_conns net n 0 _ p0 h rfl (by intro j hj; omega)
        rw [Nat.zero_add] at this
        exact ⟨by omega, this⟩

/-- The result without its value: `Ok`, which error, panic, or no end. -/
def ending {α : Type} : Outcome α → Outcome Unit
  | .ok _ => .ok ()
  | .err e => .err e
  | .panic => .panic
  | .hang => .hang

/-- C66: the three build functions end as those of C31 do: `Ok`, with the same error, with a panic, or not at all. -/
theorem C66_same_result (b : Builder CB Addr Opts K V) (net : NetOp Addr Opts → Outcome Unit) (n : Nat) (nets : Nat → Outcome Unit) :
    ending (b.buildServer net) = ending (b.base.buildServer net).2 ∧ ending (b.buildClient net) = ending (b.base.buildClient net).2 ∧
    ending (b.buildPooledClient n nets) = ending (b.base.buildPooledClient n nets).2 := by
  have loop : ∀ (op : NetOp Addr Opts) (cl : Client CB) (n i : Nat) (p : Proc CB K V) (cs : List Unit),
      ending (poolLoop cl nets n i p) = ending (connectLoop op nets n i cs).2 := by
    intro op cl n
    induction n with
    | zero => intro i p cs; rfl
    | succ n ih =>
      intro i p cs
      cases hn : nets i with
      | ok u => simp only [poolLoop, connectLoop, hn]; exact ih _ _ _
      | _ => simp [poolLoop, connectLoop, hn, ending]
  refine ⟨?_, ?_, ?_⟩
  · unfold Builder.buildServer
    cases (b.base.buildServer net).2 <;> rfl
  · unfold Builder.buildClient
    cases (b.base.buildClient net).2 <;> rfl
  · unfold Builder.buildPooledClient IPCBuilder.buildPooledClient
    split
    · rfl
    · cases b.base.validate with
      | ok u =>
        cases b.base.address with
        | none => rfl
        | some a => exact loop _ _ _ _ _ _
      | _ => rfl

/-! ### C67 -/

/-- The writes to shared data, in order: `insert` and `insert_all` on the builder, then `insert` and `remove` through contexts. -/
def dataWrites (bops : List (BOp CB Addr Opts K V)) (ops : List (Assembly.Op K V)) : List (K × Option V) :=
  bops.flatMap (fun | .insert k v => [(k, some v)] | .insertAll es => es.map (fun p => (p.1, some p.2)) | .base _ => []) ++
  ops.filterMap (fun | .write _ k v => some (k, v) | _ => none)

/-- The value that the last write to `k` has left. -/
def lastWrite (ws : List (K × Option V)) (k : K) : Option V := ((ws.reverse.find? fun w => w.1 = k).map Prod.snd).join

theorem lastWrite_concat (ws : List (K × Option V)) (k k' : K) (v : Option V) :
    lastWrite (ws ++ [(k', v)]) k = if k' = k then v else lastWrite ws k := by
  unfold lastWrite
  by_cases h : k' = k <;> simp [h]

theorem foldl_insert (es : List (K × V)) (m : TypeMap K V) (ws : List (K × Option V)) (h : ∀ k, m k = lastWrite ws k) (k : K) :
    (es.foldl (fun m p => m.insert p.1 p.2) m) k = lastWrite (ws ++ es.map (fun p => (p.1, some p.2))) k := by
  induction es generalizing m ws with
  | nil => simpa using h k
  | cons p es ih =>
    have := ih (m.insert p.1 p.2) (ws ++ [(p.1, some p.2)]) (by
      intro k
      rw [lastWrite_concat]
      simp only [TypeMap.insert, h k, eq_comm])
    simpa using this

theorem assembled_data (e : CB) (f : Format) (d : Opts) (bops : List (BOp CB Addr Opts K V)) (k : K) :
    (assembled e f d bops).data k = lastWrite (dataWrites bops []) k := by
  induction bops using list_reverse_ind generalizing k with
  | h0 => rfl
  | h1 bops op ih =>
    have h : assembled e f d (bops ++ [op]) = (assembled e f d bops).apply op := by simp [assembled]
    rw [h]
    cases op with
    | base op => simpa [Builder.apply, dataWrites] using ih k
    | insert k' v =>
      have : dataWrites (bops ++ [.insert k' v]) [] = dataWrites bops [] ++ [(k', some v)] := by simp [dataWrites]
      rw [this, lastWrite_concat]
      simp only [Builder.apply, TypeMap.insert, ih k, eq_comm]
    | insertAll es =>
      have : dataWrites (bops ++ [.insertAll es]) [] = dataWrites bops [] ++ es.map (fun p => (p.1, some p.2)) := by simp [dataWrites]
      rw [this]
      exact foldl_insert es _ _ ih k

theorem poolLoop_data {cl : Client CB} (net : Nat → Outcome Unit) : ∀ (n i : Nat) (p p' : Proc CB K V), poolLoop cl net n i p = .ok p' → p'.data = p.data := by
  intro n
  induction n with
  | zero => intro i p p' hr; cases hr; rfl
  | succ n ih =>
    intro i p p' hr
    simp only [poolLoop] at hr
    split at hr <;> try cases hr
    rw [ih _ _ _ hr]
    rfl

theorem madeBy_data {b : Builder CB Addr Opts K V} {client : Bool} {p0 : Proc CB K V} (h : MadeBy b client p0) : p0.data 0 = b.data := by
  cases client with
  | true =>
    simp only [MadeBy, if_true] at h
    rcases h with ⟨net, h⟩ | ⟨n, net, h⟩
    · unfold Builder.buildClient at h
      split at h <;> try cases h
      rfl
    · unfold Builder.buildPooledClient at h
      split at h
      · cases h
      · split at h <;> try cases h
        split at h
        · cases h
        · rw [poolLoop_data net _ _ _ _ h]; rfl
  | false =>
    simp only [MadeBy, Bool.false_eq_true, if_false] at h
    obtain ⟨net, h⟩ := h
    unfold Builder.buildServer at h
    split at h <;> try cases h
    rfl

/-- **C67.** What is read under a key, through any context of the process, is what was written last under that key, by the builder or through any context of the process (also of another connection of a server
or of a pool); nothing, if the last write was a removal or there was none. -/
theorem C67_shared_data (e : CB) (f : Format) (d : Opts) (bops : List (BOp CB Addr Opts K V)) (client : Bool) (p0 p : Proc CB K V)
    (hm : MadeBy (assembled e f d bops) client p0) (ops : List (Assembly.Op K V)) (hr : Assembly.run p0 ops = some p) (h : Nat) (c : Ctx) (hc : p.ctxs h = some c) (k : K) :
    p.read h k = lastWrite (dataWrites bops ops) k := by
  have hi := madeBy_inv hm
  have main : ∀ ops p, Assembly.run p0 ops = some p → ∀ k, p.data 0 k = lastWrite (dataWrites bops ops) k := by
    apply Assembly.run_ind (fun ops p => ∀ k, p.data 0 k = lastWrite (dataWrites bops ops) k)
    · intro k
      rw [madeBy_data hm, assembled_data]
    · intro pre p op p' hpre ih hs k
      have hip := Assembly.inv_run pre p0 p hi hpre
      cases op with
      | write hh k' v =>
        have e : dataWrites bops (pre ++ [.write hh k' v]) = dataWrites bops pre ++ [(k', v)] := by simp [dataWrites]
        rw [e, lastWrite_concat]
        simp only [step] at hs
        split at hs <;> try cases hs
        rename_i x hx
        obtain ⟨cn, hcn, ho⟩ := hip.ctxs hh x hx
        have hd : x.data = 0 := by rw [ho.2.1, (hip.conns cn hcn).data]
        simp only [hd, if_true]
        cases v <;> simp only [TypeMap.insert, TypeMap.remove, ih k, eq_comm]
      | _ =>
        have e : ∀ op, (∀ a b c, op ≠ Assembly.Op.write a b c) → dataWrites bops (pre ++ [op]) = dataWrites bops pre := by
          intro op ho
          simp only [dataWrites, List.filterMap_append]
          cases op <;> simp_all
        rw [e _ (by intro a b c hh; cases hh)]
        simp only [step] at hs
        split at hs <;> try cases hs
        exact ih k
  obtain ⟨cn, hcn, ho⟩ := (Assembly.inv_run ops p0 p hi hr).ctxs h c hc
  have hd : c.data = 0 := by rw [ho.2.1, ((Assembly.inv_run ops p0 p hi hr).conns cn hcn).data]
  simp only [Proc.read, hc, Option.bind_some, hd]
  exact main ops p hr k

/-! ### Cases -/

/-- A builder with two settings and some data. -/
def exCalls : List (BOp Nat Nat Nat Nat String) :=
  [.base (.address 7), .insert 0 "a", .base (.timeout 5), .insertAll [(1, "x"), (0, "b")], .base (.on "ping" 3), .base (.timeout 9)]

/-- A pool of two: data written through one context is read through a context of the other connection; a handler's context has the timeout of the builder although that of context 0 was changed. -/
example : ∃ p0 p, (assembled 0 .json 0 exCalls).buildPooledClient 2 (fun _ => .ok ()) = .ok p0 ∧
    Assembly.run p0 [.write 0 1 (some "y"), .setTimeout 0 1, .event 1 5 42, .stop 0, .write 5 2 (some "z")] = some p ∧
    p.read 1 1 = some "y" ∧ p.read 1 0 = some "b" ∧ p.read 1 2 = some "z" ∧ (p.ctxs 5).map (·.replyTimeout) = some 9 ∧ p.stopCalls.length = 1 ∧
    (p.ctxs 1).map (fun c => p.sender c.stopSender) = some true := ⟨_, _, rfl, rfl, rfl, rfl, rfl, rfl, rfl, rfl⟩

/-- A clone outlives its original and keeps the setting it was made with. -/
example : ∃ p0 p, (assembled 0 .json 0 exCalls).buildClient (fun _ => .ok ()) = .ok p0 ∧
    Assembly.run p0 [.clone 0 1, .setTimeout 0 4, .clone 0 2, .drop 0] = some p ∧
    p.ctxs 0 = none ∧ (p.ctxs 1).map (·.replyTimeout) = some 9 ∧ (p.ctxs 2).map (·.replyTimeout) = some 4 ∧ p.read 2 0 = some "b" := ⟨_, _, rfl, rfl, rfl, rfl, rfl, rfl⟩

/-- A server with two connections. -/
example : ∃ p0 p, (assembled 0 .json 0 exCalls).buildServer (fun _ => .ok ()) = .ok p0 ∧
    Assembly.run p0 [.accept, .accept, .event 0 0 1, .event 1 1 2, .write 0 1 none] = some p ∧
    p.read 1 1 = none ∧ p.read 1 0 = some "b" ∧ p.conns.length = 2 := ⟨_, _, rfl, rfl, rfl, rfl, rfl⟩

end
end Bromine.Props
