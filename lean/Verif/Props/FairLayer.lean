import Verif.Spec.FairLayer
import Verif.Lemmas.LayerServer
import Verif.Lemmas.FairServer
import Verif.Props.LayerServer
import Verif.Props.FairServer
/-
C83 under fair scheduling.
-/
namespace Bromine.Props
open Bromine CryptIO Layers LayerServer Spec
open Bromine.Handshake (DH Keys toyDH)

section
variable {A : Aead} {D : DH} {keys : List Keys}

theorem layer_prefix {σ : Nat → LayerServer.State A D keys} {op : Nat → Option LayerServer.Op} (h : Execution (LayerServer.step A D keys) {} σ op) (n : Nat) :
    LayerServer.run A D keys {} (firstSteps op n) = some (σ n) := by
  induction n with
  | zero => rw [h.start]; rfl
  | succ n ih =>
    rw [Handshake.firstSteps_succ, LayerServer.server_run_append, ih]
    have := h.next n
    cases ho : op n with
    | none => rw [ho] at this; simp only at this; rw [this]; rfl
    | some o => rw [ho] at this; simp only at this; simp [LayerServer.run, this]

theorem visitors_prefix {a b : List LayerServer.Op} (h : a <+: b) : visitors a <+: visitors b := by
  obtain ⟨t, rfl⟩ := h
  rw [visitors_append]
  exact List.prefix_append _ _

/-- How far the server is. -/
def layerProgress (s : LayerServer.State A D keys) : Nat := 2 * s.served.length + (guest s).length + (match s.phase with | .binding => 0 | _ => 1)

theorem layerProgress_step {s s' : LayerServer.State A D keys} {op : LayerServer.Op} (hs : LayerServer.step A D keys s op = some s') (hne : ∀ r, s'.phase ≠ .ended r) :
    layerProgress s ≤ layerProgress s' ∧ (layerProgress s = layerProgress s' → guest s' = guest s ∧ (s'.phase = .binding ↔ s.phase = .binding) ∧
      (s'.phase = .accepting ↔ s.phase = .accepting) ∧ (∀ r, op ≠ .bind r) ∧ op ≠ .accept) := by
  cases op with
  | bind r =>
    simp only [LayerServer.step] at hs
    split at hs
    · rename_i hp
      split at hs
      · cases hs; simp [layerProgress, guest, hp]
      · cases hs; exact absurd rfl (hne _)
    · cases hs
  | connect c => cases hs; simp [layerProgress, guest]
  | accept =>
    simp only [LayerServer.step] at hs
    split at hs
    · rename_i c cs hp hb
      cases hs; simp [layerProgress, guest, hp]
    · cases hs
  | acceptFails e =>
    simp only [LayerServer.step] at hs
    split at hs
    · cases hs; exact absurd rfl (hne _)
    · cases hs
  | poll as =>
    simp only [LayerServer.step] at hs
    split at hs
    · rename_i v st hp
      split at hs
      · cases hs; simp [layerProgress, guest, hp]
      · cases hs; simp [layerProgress, guest, hp]; omega
      · cases hs; exact absurd rfl (hne _)
      · cases hs; exact absurd rfl (hne _)
    · cases hs

/-- **C83, fair scheduling.** In every fair execution of a server with encrypted layers: everyone who connects is served, in the order of connecting, unless the server ends (`C83_ends_only`), or stays for ever in the set-up with one client. -/
theorem C83_fair_served {σ : Nat → LayerServer.State A D keys} {op : Nat → Option LayerServer.Op} (h : FairLayerServer A D keys σ op) (n i : Nat) (v : Visitor) (hc : (visitors (firstSteps op n))[i]? = some v) :
    (∃ m c, (σ m).served[i]? = some c ∧ c.visitor = v) ∨ (∃ m r, (σ m).phase = .ended r) ∨ ∃ v', StuckWith σ v' := by
  apply Classical.byContradiction
  intro hno
  simp only [not_or, not_exists, not_and] at hno
  obtain ⟨h1, h2, h3⟩ := hno
  have hacc : ∀ m, (σ m).served.map Served.visitor ++ guest (σ m) ++ (σ m).backlog = visitors (firstSteps op m) := fun m =>
    (C83_served_in_order (layer_prefix h.run m)).1 (h2 m)
  have hcon : ∀ m, n ≤ m → (visitors (firstSteps op m))[i]? = some v := by
    intro m hm
    obtain ⟨t, ht⟩ := visitors_prefix (firstSteps_prefix op hm)
    rw [← ht, List.getElem?_append_left (List.getElem?_eq_some_iff.1 hc).1]
    exact hc
  have hlen : ∀ m, n ≤ m → (σ m).served.length ≤ i := by
    intro m hm
    apply Nat.le_of_not_lt
    intro hlt
    have := hcon m hm
    rw [← hacc m, List.append_assoc, List.getElem?_append_left (by simpa using hlt), List.getElem?_map] at this
    obtain ⟨x, hx, hx'⟩ := Option.map_eq_some_iff.1 this
    exact h1 m x hx hx'
  have hstep : ∀ m, layerProgress (σ m) ≤ layerProgress (σ (m + 1)) ∧ (layerProgress (σ m) = layerProgress (σ (m + 1)) → guest (σ (m + 1)) = guest (σ m) ∧
      ((σ (m + 1)).phase = .binding ↔ (σ m).phase = .binding) ∧ ((σ (m + 1)).phase = .accepting ↔ (σ m).phase = .accepting) ∧
      (∀ r, op m ≠ some (.bind r)) ∧ op m ≠ some .accept) := by
    intro m
    have := h.run.next m
    cases ho : op m with
    | none => rw [ho] at this; simp only at this; rw [this]; exact ⟨Nat.le_refl _, fun _ => ⟨rfl, Iff.rfl, Iff.rfl, by simp, by simp⟩⟩
    | some o =>
      rw [ho] at this
      obtain ⟨a, b⟩ := layerProgress_step this (h2 (m + 1))
      refine ⟨a, fun e => ?_⟩
      obtain ⟨b1, b2, b3, b4, b5⟩ := b e
      exact ⟨b1, b2, b3, fun r hr => b4 r (Option.some.inj hr), fun hf => b5 (Option.some.inj hf)⟩
  refine Handshake.no_climb (f := fun m => layerProgress (σ m)) (n := n) (B := 2 * i + 2) (fun m _ => (hstep m).1) ?_ ?_
  · intro m hm
    have h4 := hlen m hm
    have h5 : (guest (σ m)).length ≤ 1 := by unfold guest; split <;> simp
    have h6 : (match (σ m).phase with | .binding => 0 | _ => 1) ≤ 1 := by split <;> omega
    simp only [layerProgress]
    omega
  intro m hm
  apply Classical.byContradiction
  intro hflat
  have heq : ∀ m', m ≤ m' → layerProgress (σ m') = layerProgress (σ (m' + 1)) := by
    intro m' hm'
    apply Nat.le_antisymm (hstep m').1
    apply Nat.le_of_not_lt
    intro hlt
    exact hflat ⟨m', hm', hlt⟩
  have hsame : ∀ m', m ≤ m' → guest (σ m') = guest (σ m) ∧ ((σ m').phase = .binding ↔ (σ m).phase = .binding) ∧ ((σ m').phase = .accepting ↔ (σ m).phase = .accepting) := by
    intro m' hm'
    induction hm' with
    | refl => exact ⟨rfl, Iff.rfl, Iff.rfl⟩
    | @step m' hm' ih =>
      obtain ⟨a, b, c, -⟩ := (hstep m').2 (heq m' hm')
      exact ⟨a.trans ih.1, b.trans ih.2.1, c.trans ih.2.2⟩
  cases hp : (σ m).phase with
  | ended r => exact h2 m r hp
  | binding =>
    obtain ⟨m', hm', o, ho, r, hr⟩ := h.binds m fun m' hm' => by
      have := (hsame m' hm').2.1.2 hp
      exact ⟨.bind (.ok ()), _, ⟨_, rfl⟩, by simp only [LayerServer.step, this]; rfl⟩
    rw [hr] at ho
    exact ((hstep m').2 (heq m' hm')).2.2.2.1 r ho
  | settingUp v' st =>
    refine h3 v' ⟨m, fun m' hm' => ?_⟩
    rw [(hsame m' hm').1]
    simp [guest, hp]
  | accepting =>
    obtain ⟨m', hm', o, ho, hr⟩ := h.accepts m fun m' hm' => by
      have hpm := (hsame m' hm').2.2.2 hp
      have hb : (σ m').backlog ≠ [] := by
        intro hb
        have hx : guest (σ m') = [] := by simp [guest, hpm]
        have e := hcon m' (by omega)
        rw [← hacc m', hx, hb, List.append_nil, List.append_nil, List.getElem?_map] at e
        have := hlen m' (by omega)
        rw [List.getElem?_eq_none this] at e
        cases e
      obtain ⟨d, ds, hd⟩ := List.exists_cons_of_ne_nil hb
      exact ⟨.accept, _, rfl, by simp only [LayerServer.step, hpm, hd]; rfl⟩
    rw [hr] at ho
    exact ((hstep m').2 (heq m' hm')).2.2.2.2 ho

/-- The polls of the steps from `n` on, `k` steps. -/
def pollsFrom (op : Nat → Option LayerServer.Op) (n : Nat) : Nat → List (List IoAns)
  | 0 => []
  | k + 1 => pollsFrom op n k ++ (match op (n + k) with | some (.poll as) => [as] | _ => [])

theorem guest_phase {s : LayerServer.State A D keys} {v : Visitor} (h : guest s = [v]) : ∃ st, s.phase = .settingUp v st := by
  unfold guest at h
  split at h
  · rename_i hp; cases h; exact ⟨_, hp⟩
  · cases h

theorem stuck_after {σ : Nat → LayerServer.State A D keys} {op : Nat → Option LayerServer.Op} (h : Execution (LayerServer.step A D keys) {} σ op) {n : Nat} {v : Visitor} (hs : ∀ m, n ≤ m → guest (σ m) = [v]) :
    ∃ ps, ∀ k, ∃ b st, (σ (n + k)).phase = .settingUp v st ∧ after A D keys v (ps ++ pollsFrom op n k) = .pending b st := by
  obtain ⟨st, hst⟩ := guest_phase (hs n (Nat.le_refl _))
  have hi := sinv_run (firstSteps op n) [] sinv_init (layer_prefix h n)
  obtain ⟨-, ps, b, -, hps⟩ := hi.waits v st hst
  refine ⟨ps, fun k => ?_⟩
  induction k with
  | zero => exact ⟨b, st, hst, by simpa [pollsFrom] using hps⟩
  | succ k ih =>
    obtain ⟨b', st', h1, h2⟩ := ih
    have hn := h.next (n + k)
    have hg := hs (n + k + 1) (by omega)
    rw [show n + (k + 1) = n + k + 1 from rfl]
    cases ho : op (n + k) with
    | none =>
      rw [ho] at hn
      simp only at hn
      rw [hn]
      exact ⟨b', st', h1, by simpa [pollsFrom, ho] using h2⟩
    | some o =>
      rw [ho] at hn
      simp only at hn
      cases o with
      | poll as =>
        simp only [pollsFrom, ho]
        rw [← List.append_assoc, after_snoc h2 as]
        simp only [LayerServer.step, h1] at hn
        generalize (server A D (v.exchanges keys)).poll _ = x at hn ⊢
        cases x with
        | pending b'' st'' => have hn' := Option.some.inj hn; exact ⟨b'', st'', by rw [← hn'], rfl⟩
        | done w r => have hn' := Option.some.inj hn; rw [← hn'] at hg; cases hg
        | failed e k => have hn' := Option.some.inj hn; rw [← hn'] at hg; cases hg
        | panicked k => have hn' := Option.some.inj hn; rw [← hn'] at hg; cases hg
      | connect v' =>
        have hn' := Option.some.inj hn
        exact ⟨b', st', by rw [← hn']; exact h1, by simpa [pollsFrom, ho] using h2⟩
      | bind r => simp [LayerServer.step, h1] at hn
      | accept => simp [LayerServer.step, h1] at hn
      | acceptFails e => simp [LayerServer.step, h1] at hn

/-- How often the socket takes something in the steps from `n` on, `k` steps. -/
theorem pollsFrom_count {op : Nat → Option LayerServer.Op} {n : Nat} (h : ∀ m, n ≤ m → ∃ m', m ≤ m' ∧ ∃ as, op m' = some (.poll as) ∧ takesSome as = true) : ∀ c, ∃ k, c ≤ (pollsFrom op n k).countP takesSome := by
  intro c
  induction c with
  | zero => exact ⟨0, Nat.zero_le _⟩
  | succ c ih =>
    obtain ⟨k, hk⟩ := ih
    obtain ⟨m', h1, as, h2, h3⟩ := h (n + k) (by omega)
    have mono : ∀ j, (pollsFrom op n k).countP takesSome ≤ (pollsFrom op n (k + j)).countP takesSome := by
      intro j
      induction j with
      | zero => exact Nat.le_refl _
      | succ j ihj => rw [← Nat.add_assoc, pollsFrom, List.countP_append]; omega
    refine ⟨k + (m' - (n + k)) + 1, ?_⟩
    have := mono (m' - (n + k))
    rw [pollsFrom, List.countP_append, show n + (k + (m' - (n + k))) = m' by omega, h2]
    simp [h3]
    omega

/-- **C83, why it is stuck.** The server stays for ever in the set-up with a client that sends all of its part only if, from some time on, the socket of this client does not take anything. -/
theorem C83_stuck_only (hl : 68 + 20 * keys.length < 2 ^ 32) {σ : Nat → LayerServer.State A D keys} {op : Nat → Option LayerServer.Op} (h : FairLayerServer A D keys σ op) {v : Visitor} (hs : StuckWith σ v) (hf : KeysSized keys v)
    (hc : SendsAll A D keys v) : ∃ n, ∀ m, n ≤ m → ∀ as, op m = some (.poll as) → takesSome as = false := by
  apply Classical.byContradiction
  intro hno
  obtain ⟨n, hn⟩ := hs
  obtain ⟨ps, hps⟩ := stuck_after h.run hn
  have hsz := visitor_sized hl hf
  obtain ⟨outC, hc1, hc2⟩ := hc
  rw [clientSends_unique hc1 (cliStream_spec A D hsz)] at hc2
  obtain ⟨G⟩ := srv_goes A D v.script.closed (scriptBytes v.script) hsz (.inr hc2)
  obtain ⟨k, hk⟩ := pollsFrom_count (op := op) (n := n) (fun m _ => by
    apply Classical.byContradiction
    intro hx
    refine hno ⟨m, fun m' hm' as ha => ?_⟩
    cases ht : takesSome as with
    | false => rfl
    | true => exact absurd ⟨m', hm', as, ha, ht⟩ hx) ((srvStream A D (v.exchanges keys)).length + v.script.chunks.length + 2 * (v.exchanges keys).length + 1)
  obtain ⟨b, st, -, hp⟩ := hps k
  have hr := G.runs (sc := v.script) rfl (ps ++ pollsFrom op n k)
  change Ran _ _ _ _ _ _ _ _ _ _ _ _ (after A D keys v _) at hr
  rw [hp] at hr
  cases hr with
  | pending h1 h2 h3 h4 h5 => have := h5 trivial (.inl hc2); rw [List.countP_append] at this; omega

/-- **C83, all are served in the end.** In every fair execution in which binding and `accept` do not fail, no socket fails, every client that connects sends all of its part and is trusted in every layer, and the sockets of clients take something
again and again: everyone who connects is served, in the order of connecting. -/
theorem C83_fair (hl : 68 + 20 * keys.length < 2 ^ 32) {σ : Nat → LayerServer.State A D keys} {op : Nat → Option LayerServer.Op} (h : FairLayerServer A D keys σ op) (hb : ∀ m e, op m ≠ some (.bind (.error e)))
    (ha : ∀ m e, op m ≠ some (.acceptFails e)) (hv : ∀ m v, op m = some (.connect v) → KeysSized keys v ∧ SendsAll A D keys v ∧ IsKnown D keys v) (hw : ∀ m as, op m = some (.poll as) → SocketWorks as)
    (ht : ∀ n, (∀ m, n ≤ m → guest (σ m) ≠ []) → ∃ m, n ≤ m ∧ ∃ as, op m = some (.poll as) ∧ takesSome as = true) (n i : Nat) (v : Visitor) (hc : (visitors (firstSteps op n))[i]? = some v) :
    ∃ m c, (σ m).served[i]? = some c ∧ c.visitor = v := by
  have hvis : ∀ m, ∀ v ∈ visitors (firstSteps op m), KeysSized keys v ∧ SendsAll A D keys v ∧ IsKnown D keys v := by
    intro m v hm
    obtain ⟨o, h1, h2⟩ := List.mem_filterMap.1 hm
    obtain ⟨m', h3⟩ := Handshake.mem_firstSteps h1
    cases o with
    | connect v' => cases h2; exact hv m' _ h3
    | _ => cases h2
  rcases C83_fair_served h n i v hc with h1 | ⟨m, r, h1⟩ | ⟨v', h1⟩
  · exact h1
  · exfalso
    have hi := sinv_run (firstSteps op m) [] sinv_init (layer_prefix h.run m)
    rw [List.nil_append] at hi
    cases r with
    | error e =>
      have := (C83_ends_only hl (fun v hv => (hvis m v hv).1) (layer_prefix h.run m)).1 e h1
      obtain ⟨m', h2⟩ := Handshake.mem_firstSteps this
      exact hb m' e h2
    | ok u =>
      rcases hi.endedOk h1 with ⟨e, h2⟩ | ⟨v, h2, ps, e, k, h3, h4⟩
      · obtain ⟨m', h2⟩ := Handshake.mem_firstSteps h2
        exact ha m' e h2
      · obtain ⟨f1, ⟨outC, f2, f3⟩, f4⟩ := hvis m v h2
        have hsz := visitor_sized hl f1
        rw [clientSends_unique f2 (cliStream_spec A D hsz)] at f3
        obtain ⟨G⟩ := srv_goes A D v.script.closed (scriptBytes v.script) hsz (.inr f3)
        have hr := G.runs (sc := v.script) rfl ps
        change Ran _ _ _ _ _ _ _ _ _ _ _ _ (after A D keys v _) at hr
        rw [h4] at hr
        cases hr with
        | failed g1 g2 =>
          rcases g2 trivial with ⟨as, k1, er, -, k2⟩ | ⟨-, -, k2⟩ | ⟨x, k1, -, k2⟩
          · obtain ⟨m', h5⟩ := Handshake.mem_firstSteps (h3 as k1)
            exact absurd k2 ((hw m' as h5).ok er)
          · exact absurd f3 k2
          · exact absurd (f4 x k1) k2
  · exfalso
    obtain ⟨n', h2⟩ := h1
    have hmem : v' ∈ visitors (firstSteps op n') := by
      obtain ⟨st, hst⟩ := guest_phase (h2 n' (Nat.le_refl _))
      have hi := sinv_run (firstSteps op n') [] sinv_init (layer_prefix h.run n')
      rw [List.nil_append] at hi
      exact (hi.waits v' st hst).1
    obtain ⟨f1, f2, -⟩ := hvis n' v' hmem
    obtain ⟨n2, h3⟩ := C83_stuck_only hl h ⟨n', h2⟩ f1 f2
    obtain ⟨m, h4, as, h5, h6⟩ := ht (max n' n2) fun m hm => by rw [h2 m (by omega)]; simp
    rw [h3 m (by omega) as h5] at h6
    cases h6

end

/-! ### Example -/

/-- A server with two layers, to which two clients connect. -/
def exFairOps : List LayerServer.Op := [.bind (.ok ()), .connect (exVisitor 1 exOutC), .accept, .connect (exVisitor 2 (exOutC ++ [1, 2])), .poll exAns, .poll exAns, .accept, .poll exAns, .poll exAns]

abbrev exFairStates : Nat → LayerServer.State toyAead toyDH exKeys := restStates (LayerServer.step toyAead toyDH exKeys) {} exFairOps

/-- The server waits for a connection, and nobody has connected. -/
def isIdle (s : LayerServer.State toyAead toyDH exKeys) : Bool := (match s.phase with | .accepting => true | _ => false) && s.backlog.isEmpty

theorem exFair_idle : (exFairStates 9).phase = .accepting ∧ (exFairStates 9).backlog = [] := by
  have h : isIdle (exFairStates 9) = true := by decide +kernel
  unfold isIdle at h
  rw [Bool.and_eq_true] at h
  obtain ⟨h1, h2⟩ := h
  refine ⟨?_, List.isEmpty_iff.1 h2⟩
  split at h1
  · assumption
  · cases h1

theorem exFairLayer : FairLayerServer toyAead toyDH exKeys exFairStates (fun n => exFairOps[n]?) := by
  obtain ⟨hp, hb⟩ := exFair_idle
  have hlate : ∀ n, exFairStates (max n 9) = exFairStates 9 := fun n => rest_later (by decide) (by omega)
  refine ⟨rest_execution _ _ _ ?_, ?_, ?_, ?_⟩
  · intro n o h
    have hn : n < 9 := (List.getElem?_eq_some_iff.1 h).1
    match n, hn with
    | 0, _ | 1, _ | 2, _ | 3, _ | 4, _ | 5, _ | 6, _ | 7, _ | 8, _ =>
      cases h
      intro h
      have := congrArg Option.isNone h
      revert this
      decide +kernel
  · intro n h
    obtain ⟨o, s', ⟨r, rfl⟩, hs⟩ := h (max n 9) (by omega)
    rw [hlate] at hs
    simp [LayerServer.step, hp] at hs
  · intro n h
    obtain ⟨o, s', rfl, hs⟩ := h (max n 9) (by omega)
    rw [hlate] at hs
    simp [LayerServer.step, hp, hb] at hs
  · intro n h
    have := h (max n 9) (by omega)
    rw [hlate] at this
    simp [guest, hp] at this

theorem exVisitor_good (n : Nat) (bs : Bytes) (h : exOutC <+: scriptBytes (exScript bs 40)) : KeysSized exKeys (exVisitor n bs) ∧ SendsAll toyAead toyDH exKeys (exVisitor n bs) ∧ IsKnown toyDH exKeys (exVisitor n bs) := by
  refine ⟨fun i hi => ?_, ⟨exOutC, cliStream_spec _ _ exSized, h⟩, ?_⟩
  · match i, hi with
    | 0, _ => rfl
    | 1, _ => rfl
  · intro x hx
    simp only [exVisitor_exchanges, exLayers, List.mem_cons, List.not_mem_nil, or_false] at hx
    rcases hx with rfl | rfl <;> exact .inr (by decide)

/-- So the second client gets served. -/
example : ∃ m c, (exFairStates m).served[1]? = some c ∧ c.visitor = exVisitor 2 (exOutC ++ [1, 2]) := by
  obtain ⟨hp, hb⟩ := exFair_idle
  have hmem : ∀ (m : Nat) (o : LayerServer.Op), exFairOps[m]? = some o → o = .bind (.ok ()) ∨ o = .connect (exVisitor 1 exOutC) ∨ o = .accept ∨ o = .connect (exVisitor 2 (exOutC ++ [1, 2])) ∨ o = .poll exAns := by
    intro m o h
    have := List.mem_of_getElem? h
    simp only [exFairOps, List.mem_cons, List.not_mem_nil, or_false] at this
    rcases this with h | h | h | h | h | h | h | h | h <;> simp [h]
  refine C83_fair (by decide) exFairLayer ?_ ?_ ?_ ?_ ?_ 9 1 _ rfl
  · intro m e h; have := hmem m _ h; simp at this
  · intro m e h; have := hmem m _ h; simp at this
  · intro m v h
    have := hmem m _ h
    simp only [reduceCtorEq, LayerServer.Op.connect.injEq, false_or, or_false] at this
    rcases this with rfl | rfl
    · exact exVisitor_good _ _ (by decide +kernel)
    · exact exVisitor_good _ _ (by decide +kernel)
  · intro m as h
    have := hmem m _ h
    simp only [reduceCtorEq, LayerServer.Op.poll.injEq, false_or] at this
    subst this
    exact ⟨by decide, by intro e h; simp [exAns] at h⟩
  · intro n h
    have := h (max n 9) (by omega)
    rw [show exFairStates (max n 9) = exFairStates 9 from rest_later (by decide) (by omega)] at this
    simp [guest, hp] at this

end Bromine.Props
