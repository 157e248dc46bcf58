import Verif.Model.Builder
/-
C30 (registration), C31 (builders validate), with the specification in terms of the list of calls made.
-/
namespace Bromine.Props
open Bromine

/-- The value given in the last call whose key is `k`. -/
def lastFor {V : Type} (calls : List (String × V)) (k : String) : Option V :=
  (calls.reverse.find? fun c => c.1 = k).map Prod.snd

theorem lastFor_concat {V : Type} (calls : List (String × V)) (k k' : String) (v : V) :
    lastFor (calls ++ [(k', v)]) k = if k' = k then some v else lastFor calls k := by
  unfold lastFor
  rw [List.reverse_append]
  by_cases h : k' = k <;> simp [h]

theorem smap_get_insert {V : Type} (m : SMap V) (k k' : String) (v : V) :
    (m.insert k v).get k' = if k = k' then some v else m.get k' := by
  induction m with
  | nil => simp [SMap.insert, SMap.get]
  | cons p m ih =>
    obtain ⟨a, b⟩ := p
    unfold SMap.insert
    split
    · rename_i h; subst h
      simp only [SMap.get]
      split <;> rfl
    · rename_i h
      simp only [SMap.get, ih]
      by_cases h1 : a = k' <;> by_cases h2 : k = k' <;> simp_all

/-- C30: a handler built by any sequence of `on` calls serves a name with the callback registered last for
that name, and with nothing if there was none. -/
theorem C30_last_registration {CB : Type} (calls : List (String × CB)) (name : String) :
    (nsHandler calls).callback name = lastFor calls name := by
  suffices h : ∀ (pre calls : List (String × CB)) (h : EventHandler CB),
      (∀ k, h.callback k = lastFor pre k) →
      ∀ k, (calls.foldl (fun h p => h.on p.1 p.2) h).callback k = lastFor (pre ++ calls) k by
    simpa [nsHandler] using h [] calls EventHandler.new (fun k => rfl) name
  intro pre calls
  induction calls generalizing pre with
  | nil => intro h hh k; simpa using hh k
  | cons c calls ih =>
    intro h hh k
    have := ih (pre ++ [c]) (h.on c.1 c.2) (fun k => by
      have := hh k
      obtain ⟨c1, c2⟩ := c
      simp only [EventHandler.callback, EventHandler.on, smap_get_insert, lastFor_concat] at this ⊢
      rw [this]) k
    simpa using this

section
variable {CB Addr Opts : Type}

/-- The `on` calls among the builder calls. -/
def onCalls (ops : List (BuilderOp CB Addr Opts)) : List (String × CB) :=
  ops.filterMap fun | .on n cb => some (n, cb) | _ => none

/-- The namespaces added, by `add_namespace` or a namespace builder, as name and list of `on` calls or
ready handler. -/
def nsCalls (ops : List (BuilderOp CB Addr Opts)) : List (String × (String → Option CB)) :=
  ops.filterMap fun
    | .addNamespace ns => some (ns.name, ns.handler.callback)
    | .namespace n ons => some (n, lastFor ons)
    | _ => none

/-- The addresses given. -/
def addressCalls (ops : List (BuilderOp CB Addr Opts)) : List Addr :=
  ops.filterMap fun | .address a => some a | _ => none

def timeoutCalls (ops : List (BuilderOp CB Addr Opts)) : List Nat :=
  ops.filterMap fun | .timeout t => some t | _ => none

def serializerCalls (ops : List (BuilderOp CB Addr Opts)) : List Format :=
  ops.filterMap fun | .defaultSerializer f => some f | _ => none

def serverOptionCalls (ops : List (BuilderOp CB Addr Opts)) : List Opts :=
  ops.filterMap fun | .serverOptions o => some o | _ => none

def clientOptionCalls (ops : List (BuilderOp CB Addr Opts)) : List Opts :=
  ops.filterMap fun | .clientOptions o => some o | _ => none

/-- A builder after some calls. -/
def built (defaultError : CB) (first : Format) (dflt : Opts) (ops : List (BuilderOp CB Addr Opts)) :
    IPCBuilder CB Addr Opts :=
  ops.foldl IPCBuilder.apply (IPCBuilder.new defaultError first dflt)

theorem built_concat (e : CB) (f : Format) (d : Opts) (ops : List (BuilderOp CB Addr Opts)) (op) :
    built e f d (ops ++ [op]) = (built e f d ops).apply op := by simp [built]

theorem list_reverse_ind {α : Type} {P : List α → Prop} (h0 : P []) (h1 : ∀ l a, P l → P (l ++ [a])) :
    ∀ l, P l := by
  intro l
  rw [← List.reverse_reverse l]
  induction l.reverse with
  | nil => exact h0
  | cons a l ih => rw [List.reverse_cons]; exact h1 _ _ ih

/-- C30: after any sequence of builder calls, a global event name is served by the last callback registered
for it; without any, "error" is served by the default callback and every other name by none. -/
theorem C30_global_handlers (e : CB) (f : Format) (d : Opts) (ops : List (BuilderOp CB Addr Opts)) (name : String) :
    (built e f d ops).handler.callback name
      = lastFor (("error", e) :: onCalls ops) name := by
  induction ops using list_reverse_ind with
  | h0 =>
    simp only [built, List.foldl_nil, IPCBuilder.new, EventHandler.callback, EventHandler.on, smap_get_insert,
      ERROR_EVENT_NAME, onCalls, List.filterMap_nil]
    have := lastFor_concat [] name "error" e
    simp only [List.nil_append] at this
    rw [this]
    rfl
  | h1 ops op ih =>
    rw [built_concat]
    have hon : onCalls (ops ++ [op]) = onCalls ops ++ onCalls [op] := by simp [onCalls]
    cases op with
    | on n cb =>
      rw [hon]
      simp only [IPCBuilder.apply, EventHandler.callback, EventHandler.on, smap_get_insert]
      simp only [EventHandler.callback] at ih
      rw [ih]
      have := lastFor_concat (("error", e) :: onCalls ops) name n cb
      simp only [onCalls, List.filterMap_cons, List.filterMap_nil] at this ⊢
      rw [List.cons_append] at this
      rw [this]
    | _ => rw [hon]; simpa [IPCBuilder.apply, onCalls, IPCBuilder.addNamespace] using ih

/-- C30: after any sequence of builder calls, the handlers of a namespace are those of the namespace added
last under that name, none of the earlier ones; a name never added is not registered. -/
theorem C30_namespaces (e : CB) (f : Format) (d : Opts) (ops : List (BuilderOp CB Addr Opts)) (ns : String) :
    ((built e f d ops).namespaces.get ns).map (fun n => n.handler.callback)
      = lastFor (nsCalls ops) ns := by
  induction ops using list_reverse_ind with
  | h0 => rfl
  | h1 ops op ih =>
    rw [built_concat]
    have hon : nsCalls (ops ++ [op]) = nsCalls ops ++ nsCalls [op] := by simp [nsCalls]
    cases op with
    | addNamespace n =>
      rw [hon]
      simp only [IPCBuilder.apply, IPCBuilder.addNamespace, smap_get_insert]
      have := lastFor_concat (nsCalls ops) ns n.name n.handler.callback
      simp only [nsCalls, List.filterMap_cons, List.filterMap_nil] at this ih ⊢
      rw [this, ← ih]
      split <;> rfl
    | «namespace» n ons =>
      rw [hon]
      simp only [IPCBuilder.apply, IPCBuilder.addNamespace, smap_get_insert]
      have := lastFor_concat (nsCalls ops) ns n (lastFor ons)
      simp only [nsCalls, List.filterMap_cons, List.filterMap_nil] at this ih ⊢
      rw [this, ← ih]
      split
      · simp only [Option.map_some, Option.some.injEq]
        exact funext fun k => C30_last_registration ons k
      · rfl
    | _ => rw [hon]; simpa [IPCBuilder.apply, nsCalls] using ih

/-- C30: every other setting is the one given last, or its default (60 s, the first available format, the
default options). -/
theorem C30_settings (e : CB) (f : Format) (d : Opts) (ops : List (BuilderOp CB Addr Opts)) :
    (built e f d ops).timeoutMs = (timeoutCalls ops).getLast?.getD 60000 ∧
    (built e f d ops).defaultSerializer = (serializerCalls ops).getLast?.getD f ∧
    (built e f d ops).listenerOptions = (serverOptionCalls ops).getLast?.getD d ∧
    (built e f d ops).streamOptions = (clientOptionCalls ops).getLast?.getD d ∧
    (built e f d ops).address = (addressCalls ops).getLast? := by
  induction ops using list_reverse_ind with
  | h0 => exact ⟨rfl, rfl, rfl, rfl, rfl⟩
  | h1 ops op ih =>
    rw [built_concat]
    obtain ⟨i1, i2, i3, i4, i5⟩ := ih
    simp only [timeoutCalls, serializerCalls, serverOptionCalls, clientOptionCalls, addressCalls] at i1 i2 i3 i4 i5
    cases op <;>
      simp [IPCBuilder.apply, IPCBuilder.addNamespace, timeoutCalls, serializerCalls, serverOptionCalls,
        clientOptionCalls, addressCalls, i1, i2, i3, i4, i5]

example : ((built (CB := Nat) (Addr := Nat) (Opts := Unit) 0 .json () [.on "a" 1, .on "error" 2, .on "a" 3]).handler.callback "a"
    = some 3) := by rw [C30_global_handlers]; decide
example : ((built (CB := Nat) (Addr := Nat) (Opts := Unit) 0 .json () [.on "a" 1]).handler.callback "error"
    = some 0) := by rw [C30_global_handlers]; decide

/-! ### C31 builders -/

/-- C31: without an address, every build fails with a `BuildError` and does nothing on the network. -/
theorem C31_missing_address {C : Type} (e : CB) (f : Format) (d : Opts) (ops : List (BuilderOp CB Addr Opts))
    (h : addressCalls ops = []) (net : NetOp Addr Opts → Outcome C) (net' : Nat → Outcome C) (n : Nat) :
    (built e f d ops).buildServer net = ([], .err (.build "Missing Address")) ∧
    (built e f d ops).buildClient net = ([], .err (.build "Missing Address")) ∧
    ∃ msg, (built e f d ops).buildPooledClient n net' = ([], .err (.build msg)) := by
  have ha : (built e f d ops).address = none := by rw [(C30_settings e f d ops).2.2.2.2, h]; rfl
  refine ⟨by simp [IPCBuilder.buildServer, IPCBuilder.validate, ha],
    by simp [IPCBuilder.buildClient, IPCBuilder.validate, ha], ?_⟩
  unfold IPCBuilder.buildPooledClient
  split
  · exact ⟨_, rfl⟩
  · exact ⟨"Missing Address", by simp [IPCBuilder.validate, ha]⟩

/-- C31: with an address, exactly one connection (or bind) to the address given last, with the options given
last, and its outcome is the result. -/
theorem C31_single_connection {C : Type} (e : CB) (f : Format) (d : Opts) (ops : List (BuilderOp CB Addr Opts)) (a : Addr)
    (h : (addressCalls ops).getLast? = some a) (net : NetOp Addr Opts → Outcome C) :
    (built e f d ops).buildServer net
      = ([.bind a ((serverOptionCalls ops).getLast?.getD d)],
         net (.bind a ((serverOptionCalls ops).getLast?.getD d))) ∧
    (built e f d ops).buildClient net
      = ([.connect a ((clientOptionCalls ops).getLast?.getD d)],
         net (.connect a ((clientOptionCalls ops).getLast?.getD d))) := by
  obtain ⟨-, -, h3, h4, h5⟩ := C30_settings e f d ops
  rw [h] at h5
  constructor
  · simp [IPCBuilder.buildServer, IPCBuilder.validate, h5, h3]
  · simp [IPCBuilder.buildClient, IPCBuilder.validate, h5, h4]

/-- C31: a pool of size zero is refused, whatever the configuration, without touching the network. -/
theorem C31_pool_zero {C : Type} (b : IPCBuilder CB Addr Opts) (net : Nat → Outcome C) :
    b.buildPooledClient 0 net = ([], .err (.build "Pool size must be greater than 0")) := rfl

theorem connectLoop_ok {C : Type} (op : NetOp Addr Opts) (net : Nat → Outcome C) (n i : Nat) (cs cs' : List C) :
    (connectLoop op net n i cs).2 = .ok cs' ↔
      ∃ new : List C, cs' = cs ++ new ∧ new.length = n ∧ ∀ k, k < n → (new[k]?).map Outcome.ok = some (net (i + k)) := by
  induction n generalizing i cs with
  | zero =>
    simp only [connectLoop, Outcome.ok.injEq, List.length_eq_zero_iff]
    constructor
    · rintro rfl; exact ⟨[], by simp, rfl, by simp⟩
    · rintro ⟨new, h1, rfl, -⟩; simpa using h1.symm
  | succ n ih =>
    unfold connectLoop
    cases hn : net i with
    | ok c =>
      simp only [ih]
      constructor
      · rintro ⟨new, rfl, h2, h3⟩
        refine ⟨c :: new, by simp, by simp [h2], fun k hk => ?_⟩
        cases k with
        | zero => simp [hn]
        | succ k =>
          have := h3 k (by omega)
          rw [List.getElem?_cons_succ, this]
          congr 2; omega
      · rintro ⟨new, rfl, h2, h3⟩
        cases new with
        | nil => simp at h2
        | cons c' new =>
          have h0 := h3 0 (by omega)
          simp [hn] at h0
          subst h0
          refine ⟨new, by simp, by simpa using h2, fun k hk => ?_⟩
          have := h3 (k + 1) (by omega)
          rw [List.getElem?_cons_succ] at this
          rw [this]; congr 2; omega
    | err e =>
      simp only [reduceCtorEq, false_iff, not_exists, not_and]
      intro new _ h2 h3
      have h0 := h3 0 (by omega)
      cases new with
      | nil => simp at h2
      | cons c' new => simp [hn] at h0
    | panic =>
      simp only [reduceCtorEq, false_iff, not_exists, not_and]
      intro new _ h2 h3
      have h0 := h3 0 (by omega)
      cases new with
      | nil => simp at h2
      | cons c' new => simp [hn] at h0
    | hang =>
      simp only [reduceCtorEq, false_iff, not_exists, not_and]
      intro new _ h2 h3
      have h0 := h3 0 (by omega)
      cases new with
      | nil => simp at h2
      | cons c' new => simp [hn] at h0

theorem connectLoop_ops {C : Type} (op : NetOp Addr Opts) (net : Nat → Outcome C) (n i : Nat) (cs : List C) :
    ((∀ k, k < n → ∃ c, net (i + k) = .ok c) → (connectLoop op net n i cs).1 = List.replicate n op) ∧
    (∀ m e, m < n → (∀ k, k < m → ∃ c, net (i + k) = .ok c) → net (i + m) = .err e →
      connectLoop op net n i cs = (List.replicate (m + 1) op, .err e)) := by
  induction n generalizing i cs with
  | zero => exact ⟨fun _ => rfl, fun m e h => absurd h (by omega)⟩
  | succ n ih =>
    constructor
    · intro h
      obtain ⟨c, hc⟩ := h 0 (by omega)
      have := (ih (i + 1) (cs ++ [c])).1 (fun k hk => by
        obtain ⟨c, h⟩ := h (k + 1) (by omega); exact ⟨c, by rw [← h]; congr 1; omega⟩)
      unfold connectLoop
      rw [show net i = .ok c from hc]
      simp [this, List.replicate_succ]
    · intro m e hm h he
      cases m with
      | zero =>
        unfold connectLoop
        rw [show net i = .err e from he]
        rfl
      | succ m =>
        obtain ⟨c, hc⟩ := h 0 (by omega)
        have := (ih (i + 1) (cs ++ [c])).2 m e (by omega) (fun k hk => by
          obtain ⟨c, h⟩ := h (k + 1) (by omega); exact ⟨c, by rw [← h]; congr 1; omega⟩)
          (by rw [← he]; congr 1; omega)
        unfold connectLoop
        rw [show net i = .ok c from hc]
        simp [this, List.replicate_succ]

/-- C31: a pooled build that succeeds made exactly `n` connections to the given address and the pool consists
of them, in order. -/
theorem C31_pool_success {C : Type} (e : CB) (f : Format) (d : Opts) (ops : List (BuilderOp CB Addr Opts)) (n : Nat)
    (net : Nat → Outcome C) (cs : List C) (log : List (NetOp Addr Opts))
    (h : (built e f d ops).buildPooledClient n net = (log, .ok cs)) :
    0 < n ∧ cs.length = n ∧ (∀ k, k < n → (cs[k]?).map Outcome.ok = some (net k)) ∧
    ∃ a, (addressCalls ops).getLast? = some a ∧
      log = List.replicate n (.connect a ((clientOptionCalls ops).getLast?.getD d)) := by
  unfold IPCBuilder.buildPooledClient at h
  split at h
  · simp at h
  · rename_i hn
    obtain ⟨-, -, -, h4, h5⟩ := C30_settings e f d ops
    unfold IPCBuilder.validate at h
    cases ha : (built e f d ops).address with
    | none => simp [ha] at h
    | some a =>
      simp only [ha, Option.isNone_some, Bool.false_eq_true, if_false, h4] at h
      have h2 : (connectLoop (.connect a ((clientOptionCalls ops).getLast?.getD d)) net n 0 []).2 = .ok cs := by
        rw [h]
      obtain ⟨new, rfl, h3, h6⟩ := (connectLoop_ok _ _ _ _ _ _).mp h2
      simp only [Nat.zero_add] at h6
      refine ⟨by omega, by simpa using h3, by simpa using h6, a, by rw [← h5, ha], ?_⟩
      have := (connectLoop_ops (.connect a ((clientOptionCalls ops).getLast?.getD d)) net n 0 []).1
        (fun k hk => by
          have := h6 k hk
          cases hk2 : cs[k]? with
          | none => rw [hk2] at this; simp at this
          | some c => rw [hk2] at this; simp at this; exact ⟨c, by simpa using this.symm⟩)
      rw [h] at this
      exact this

/-- C31: if the `m`-th connection attempt is the first to fail, its error is the result and no further attempt
is made. -/
theorem C31_pool_failure {C : Type} (e : CB) (f : Format) (d : Opts) (ops : List (BuilderOp CB Addr Opts)) (n m : Nat)
    (net : Nat → Outcome C) (a : Addr) (err : Error) (ha : (addressCalls ops).getLast? = some a) (hm : m < n)
    (hok : ∀ k, k < m → ∃ c, net k = .ok c) (herr : net m = .err err) :
    (built e f d ops).buildPooledClient n net
      = (List.replicate (m + 1) (.connect a ((clientOptionCalls ops).getLast?.getD d)), .err err) := by
  obtain ⟨-, -, -, h4, h5⟩ := C30_settings e f d ops
  rw [ha] at h5
  unfold IPCBuilder.buildPooledClient IPCBuilder.validate
  rw [if_neg (by omega)]
  simp only [h5, Option.isNone_some, Bool.false_eq_true, if_false, h4]
  exact (connectLoop_ops _ net n 0 []).2 m err hm (by simpa using hok) (by simpa using herr)

example : (built (CB := Nat) (Addr := Nat) (Opts := Unit) 0 .json () [.address 4]).buildPooledClient 2
    (fun k => .ok k) = ([.connect 4 (), .connect 4 ()], .ok [0, 1]) := rfl

end
end Bromine.Props
