import Verif.Lemmas.FairServer
import Verif.Props.Server
/-
C74: what happens at some time, if servers and key exchanges are scheduled fairly.
-/
namespace Bromine.Props
open Bromine Bromine.Spec Bromine.CryptIO Bromine.Handshake Bromine.Server

section
variable {A : Aead} {D : DH} {l : Listener}

theorem server_prefix {σ : Nat → Server.State} {op : Nat → Option Server.Op} (h : Execution (Server.step A D l) {} σ op) (n : Nat) :
    Server.run A D l {} (firstSteps op n) = some (σ n) := by
  induction n with
  | zero => rw [h.start]; rfl
  | succ n ih =>
    rw [firstSteps_succ, server_run_append, ih]
    have := h.next n
    cases ho : op n with
    | none => rw [ho] at this; simp only at this; rw [this]; rfl
    | some o => rw [ho] at this; simp only at this; simp [Server.run, this]

theorem firstSteps_prefix {O : Type} (op : Nat → Option O) {n m : Nat} (h : n ≤ m) : firstSteps op n <+: firstSteps op m := by
  induction h with
  | refl => exact List.prefix_rfl
  | step _ ih => rw [firstSteps_succ]; exact ih.trans (List.prefix_append _ _)

theorem connected_prefix {a b : List Server.Op} (h : a <+: b) : connected a <+: connected b := by
  obtain ⟨t, rfl⟩ := h
  unfold connected
  rw [List.filterMap_append]
  exact List.prefix_append _ _

/-- How far the server is. -/
def progress (s : Server.State) : Nat := 2 * s.served.length + (inExchange s).length + (match s.phase with | .binding => 0 | _ => 1)

theorem progress_step {s s' : Server.State} {op : Server.Op} (hs : Server.step A D l s op = some s') (hne : ∀ r, s'.phase ≠ .ended r) :
    progress s ≤ progress s' ∧ (progress s = progress s' → inExchange s' = inExchange s ∧ (s'.phase = .binding ↔ s.phase = .binding) ∧
      (s'.phase = .accepting ↔ s.phase = .accepting) ∧ (∀ r, op ≠ .bind r) ∧ ∀ f, op ≠ .accept f) := by
  cases op with
  | bind r =>
    simp only [Server.step] at hs
    split at hs
    · rename_i hp
      split at hs
      · cases hs; simp [progress, inExchange, hp]
      · cases hs; exact absurd rfl (hne _)
    · cases hs
  | connect c => cases hs; simp [progress, inExchange]
  | accept fresh =>
    simp only [Server.step] at hs
    split at hs
    · rename_i c cs hp hb
      split at hs
      · cases hs; simp [progress, inExchange, hp]; omega
      · cases hs; simp [progress, inExchange, hp]
    · cases hs
  | acceptFails e =>
    simp only [Server.step] at hs
    split at hs
    · cases hs; exact absurd rfl (hne _)
    · cases hs
  | exchange o =>
    simp only [Server.step] at hs
    split at hs
    · rename_i c fresh side keys hp
      split at hs
      · cases hs
      · rename_i side' hside
        split at hs
        · cases hs; simp [progress, inExchange, hp]; omega
        · cases hs; exact absurd rfl (hne _)
        · cases hs; exact absurd rfl (hne _)
        · cases hs; simp [progress, inExchange, hp]
    · cases hs

/-- **C74, servers.** In every fair execution of a server, plain or encrypted: everyone who connects is served, in the order of connecting, unless the server ends (see C35 for when), or stays for ever in the
key exchange with one client. -/
theorem C74_served (A : Aead) (D : DH) (l : Listener) (σ : Nat → Server.State) (op : Nat → Option Server.Op) (h : FairServer A D l σ op)
    (n i c : Nat) (hc : (connected (firstSteps op n))[i]? = some c) :
    (∃ m session, (σ m).served[i]? = some (c, session)) ∨ (∃ m r, (σ m).phase = .ended r) ∨ ∃ c', Stuck σ c' := by
  apply Classical.byContradiction
  intro hno
  simp only [not_or, not_exists] at hno
  obtain ⟨h1, h2, h3⟩ := hno
  have hacc : ∀ m, (σ m).served.map Prod.fst ++ inExchange (σ m) ++ (σ m).backlog = connected (firstSteps op m) := fun m =>
    C35_served_in_order A D l _ _ (server_prefix h.run m) (h2 m)
  have hcon : ∀ m, n ≤ m → (connected (firstSteps op m))[i]? = some c := by
    intro m hm
    obtain ⟨t, ht⟩ := connected_prefix (firstSteps_prefix op hm)
    rw [← ht, List.getElem?_append_left (List.getElem?_eq_some_iff.1 hc).1]
    exact hc
  have hlen : ∀ m, n ≤ m → (σ m).served.length ≤ i := by
    intro m hm
    apply Nat.le_of_not_lt
    intro hlt
    have := hcon m hm
    rw [← hacc m, List.append_assoc, List.getElem?_append_left (by simpa using hlt), List.getElem?_map] at this
    obtain ⟨x, hx, hx'⟩ := Option.map_eq_some_iff.1 this
    exact h1 m x.2 (by rw [hx, ← hx'])
  have hstep : ∀ m, progress (σ m) ≤ progress (σ (m + 1)) ∧ (progress (σ m) = progress (σ (m + 1)) → inExchange (σ (m + 1)) = inExchange (σ m) ∧
      ((σ (m + 1)).phase = .binding ↔ (σ m).phase = .binding) ∧ ((σ (m + 1)).phase = .accepting ↔ (σ m).phase = .accepting) ∧
      (∀ r, op m ≠ some (.bind r)) ∧ ∀ f, op m ≠ some (.accept f)) := by
    intro m
    have := h.run.next m
    cases ho : op m with
    | none => rw [ho] at this; simp only at this; rw [this]; exact ⟨Nat.le_refl _, fun _ => ⟨rfl, Iff.rfl, Iff.rfl, by simp, by simp⟩⟩
    | some o =>
      rw [ho] at this
      obtain ⟨a, b⟩ := progress_step this (h2 (m + 1))
      refine ⟨a, fun e => ?_⟩
      obtain ⟨b1, b2, b3, b4, b5⟩ := b e
      exact ⟨b1, b2, b3, fun r hr => b4 r (Option.some.inj hr), fun f hf => b5 f (Option.some.inj hf)⟩
  refine no_climb (f := fun m => progress (σ m)) (n := n) (B := 2 * i + 2) (fun m _ => (hstep m).1) ?_ ?_
  · intro m hm
    have h4 := hlen m hm
    have h5 : (inExchange (σ m)).length ≤ 1 := by unfold inExchange; split <;> simp
    have h6 : (match (σ m).phase with | .binding => 0 | _ => 1) ≤ 1 := by split <;> omega
    simp only [progress]
    omega
  intro m hm
  apply Classical.byContradiction
  intro hflat
  have heq : ∀ m', m ≤ m' → progress (σ m') = progress (σ (m' + 1)) := by
    intro m' hm'
    apply Nat.le_antisymm (hstep m').1
    apply Nat.le_of_not_lt
    intro hlt
    exact hflat ⟨m', hm', hlt⟩
  have hsame : ∀ m', m ≤ m' → inExchange (σ m') = inExchange (σ m) ∧ ((σ m').phase = .binding ↔ (σ m).phase = .binding) ∧ ((σ m').phase = .accepting ↔ (σ m).phase = .accepting) := by
    intro m' hm'
    induction hm' with
    | refl => exact ⟨rfl, Iff.rfl, Iff.rfl⟩
    | @step m' hm' ih =>
      obtain ⟨a, b, c, -⟩ := (hstep m').2 (heq m' hm')
      exact ⟨a.trans ih.1, b.trans ih.2.1, c.trans ih.2.2⟩
  cases hp : (σ m).phase with
  | ended r => exact h2 m r hp
  | binding =>
    obtain ⟨m', hm', o, ho, r, hr⟩ := h.binds m fun m' hm' => by
      have := (hsame m' hm').2.1.2 hp
      exact ⟨.bind (.ok ()), _, ⟨_, rfl⟩, by simp only [Server.step, this]; rfl⟩
    rw [hr] at ho
    exact ((hstep m').2 (heq m' hm')).2.2.2.1 r ho
  | exchanging c' fresh side =>
    refine h3 c' ⟨m, fun m' hm' => ?_⟩
    rw [(hsame m' hm').1]
    simp [inExchange, hp]
  | accepting =>
    obtain ⟨m', hm', o, ho, r, hr⟩ := h.accepts m fun m' hm' => by
      have hpm := (hsame m' hm').2.2.2 hp
      have hb : (σ m').backlog ≠ [] := by
        intro hb
        have hx : inExchange (σ m') = [] := by simp [inExchange, hpm]
        have e := hcon m' (by omega)
        rw [← hacc m', hx, hb, List.append_nil, List.append_nil, List.getElem?_map] at e
        have := hlen m' (by omega)
        rw [List.getElem?_eq_none this] at e
        cases e
      obtain ⟨d, ds, hd⟩ := List.exists_cons_of_ne_nil hb
      cases l with
      | plain => exact ⟨.accept [], _, ⟨_, rfl⟩, by simp only [Server.step, hpm, hd]; rfl⟩
      | encrypted keys => exact ⟨.accept [], _, ⟨_, rfl⟩, by simp only [Server.step, hpm, hd]; rfl⟩
    rw [hr] at ho
    exact ((hstep m').2 (heq m' hm')).2.2.2.2 r ho

/-- **C74, plain servers** never get stuck: everyone who connects is served, unless `accept` fails. -/
theorem C74_plain (A : Aead) (D : DH) (σ : Nat → Server.State) (op : Nat → Option Server.Op) (h : FairServer A D .plain σ op) (hb : ∀ m e, op m ≠ some (.bind (.error e)))
    (ha : ∀ m e, op m ≠ some (.acceptFails e)) (n i c : Nat) (hc : (connected (firstSteps op n))[i]? = some c) :
    ∃ m, (σ m).served[i]? = some (c, none) := by
  have hplain : ∀ m, inExchange (σ m) = [] ∧ (∀ r, (σ m).phase ≠ .ended r) ∧ ∀ x ∈ (σ m).served, x.2 = none := by
    intro m
    induction m with
    | zero => rw [h.run.start]; simp [inExchange]
    | succ m ih =>
      obtain ⟨i1, i2, i3⟩ := ih
      have := h.run.next m
      generalize σ (m + 1) = s' at *
      cases ho : op m with
      | none => rw [ho] at this; simp only at this; rw [this]; exact ⟨i1, i2, i3⟩
      | some o =>
        rw [ho] at this
        simp only at this
        cases o with
        | bind r =>
          simp only [Server.step] at this
          split at this
          · split at this
            · cases this; exact ⟨rfl, by simp, i3⟩
            · exact absurd ho (hb m _)
          · cases this
        | connect c => cases this; exact ⟨i1, i2, i3⟩
        | accept f =>
          simp only [Server.step] at this
          split at this
          · rename_i d ds hp hbk
            cases this
            refine ⟨by simp [inExchange, hp], by simp [hp], ?_⟩
            intro x hx
            rcases List.mem_append.1 hx with hx | hx
            · exact i3 x hx
            · rw [List.mem_singleton.1 hx]
          · cases this
        | acceptFails e => exact absurd ho (ha m e)
        | exchange o => simp [Server.step] at this
  rcases C74_served A D .plain σ op h n i c hc with ⟨m, s, hm⟩ | ⟨m, r, hm⟩ | ⟨c', m, hm⟩
  · refine ⟨m, ?_⟩
    have := (hplain m).2.2 _ (List.mem_of_getElem? hm)
    simp only at this
    rw [this] at hm
    exact hm
  · exact absurd hm ((hplain m).2.1 r)
  · exact absurd ((hplain m).1.symm.trans (hm m (Nat.le_refl _))) (by simp)

theorem exchange_next {keys : Keys} {σ : Nat → Server.State} {op : Nat → Option Server.Op} (hx : Execution (Server.step A D (.encrypted keys)) {} σ op) (m : Nat) {c : Nat} {fresh : Bytes}
    {side : Side SPhase} (hp : (σ m).phase = .exchanging c fresh side) (hin : inExchange (σ (m + 1)) ≠ []) :
    ((σ (m + 1)).phase = .exchanging c fresh side ∨ ∃ p side', side.step (serverPoll A D keys fresh) p = some side' ∧ (σ (m + 1)).phase = .exchanging c fresh side' ∧ SOpen side'.phase) ∧
    ∀ k as, op m = some (.exchange (.poll k as)) → ∃ side', side.step (serverPoll A D keys fresh) (.poll k as) = some side' ∧ (σ (m + 1)).phase = .exchanging c fresh side' := by
  have h := hx.next m
  generalize op m = o at *
  generalize σ (m + 1) = s' at *
  cases o with
  | none => simp only at h; rw [h]; exact ⟨Or.inl hp, by simp⟩
  | some o =>
    simp only at h
    cases o with
    | bind r => simp [Server.step, hp] at h
    | connect d => cases h; exact ⟨Or.inl hp, by simp⟩
    | accept f => simp [Server.step, hp] at h
    | acceptFails e => simp [Server.step, hp] at h
    | exchange p =>
      simp only [Server.step, hp] at h
      split at h
      · cases h
      · rename_i side' hside
        split at h
        · cases h; exact absurd rfl hin
        · cases h; exact absurd rfl hin
        · cases h; exact absurd rfl hin
        · rename_i h1 h2 h3
          cases h
          refine ⟨Or.inr ⟨p, side', hside, rfl, ?_⟩, ?_⟩
          · unfold SOpen
            split
            · rename_i heq; exact h1 _ heq
            · rename_i heq; exact h2 _ heq
            · rename_i heq; exact h3 heq
            · trivial
          · rintro k as ⟨⟩
            exact ⟨side', hside, rfl⟩

/-- The exchange that a server is in. -/
def sideOf (s : Server.State) : Side SPhase := match s.phase with | .exchanging _ _ side => side | _ => serverInit

/-- In an execution, an exchange has its invariant, and has not ended. -/
theorem exchange_inv {keys : Keys} {σ : Nat → Server.State} {op : Nat → Option Server.Op} (h : Execution (Server.step A D (.encrypted keys)) {} σ op)
    (hf : ∀ m fresh, op m = some (.accept fresh) → fresh.length = 32) (m : Nat) : ∀ c fresh side, (σ m).phase = .exchanging c fresh side →
      fresh.length = 32 ∧ SInv A D keys fresh side.phase side.got side.inbox side.sent ∧ SOpen side.phase := by
  induction m with
  | zero => rw [h.start]; intro c fresh side hp; cases hp
  | succ m ih =>
    intro c fresh side hp
    have hn := h.next m
    cases hpm : (σ m).phase with
    | exchanging c' fresh' side' =>
      obtain ⟨i1, i2, i3⟩ := ih _ _ _ hpm
      rcases (exchange_next h m hpm (by simp [inExchange, hp])).1 with g | ⟨p, side2, g1, g2, g3⟩
      · rw [hp] at g; cases g; exact ⟨i1, i2, i3⟩
      · rw [hp] at g2; cases g2; exact ⟨i1, serverStep_inv i1 i2 g1, g3⟩
    | binding =>
      exfalso
      generalize σ (m + 1) = s' at *
      cases ho : op m with
      | none => rw [ho] at hn; simp only at hn; rw [hn, hpm] at hp; cases hp
      | some o =>
        rw [ho] at hn
        simp only at hn
        cases o <;> simp only [Server.step, hpm] at hn
        · split at hn <;> cases hn <;> cases hp
        · cases hn; cases hp
        · cases hn
        · cases hn
        · cases hn
    | ended r =>
      exfalso
      cases ho : op m with
      | none => rw [ho] at hn; simp only at hn; rw [hn, hpm] at hp; cases hp
      | some o =>
        rw [ho] at hn
        have := (ended_step hpm hn).1
        rw [hp] at this
        cases this
    | accepting =>
      generalize σ (m + 1) = s' at *
      cases ho : op m with
      | none => rw [ho] at hn; simp only at hn; rw [hn, hpm] at hp; cases hp
      | some o =>
        rw [ho] at hn
        simp only at hn
        cases o <;> simp only [Server.step, hpm] at hn
        · cases hn
        · cases hn; cases hp
        · rename_i f
          split at hn
          · rename_i d ds _ hb
            cases hn
            cases hp
            exact ⟨hf m _ ho, serverInit_inv A D keys _, trivial⟩
          · cases hn
        · cases hn; cases hp
        · cases hn

/-- **C74, why an encrypted server is stuck.** If a server that is scheduled fairly stays for ever in the key exchange with a client, then this client never sends the 32 bytes of a key and never closes the connection, or from some point on the
transport takes nothing of what the server writes (the client does not read). So a client that closes the connection too early, or sends its key and reads what it is sent, does not block the server. -/
theorem C74_stuck_only (A : Aead) (D : DH) (keys : Keys) (σ : Nat → Server.State) (op : Nat → Option Server.Op) (h : FairServer A D (.encrypted keys) σ op)
    (hf : ∀ m fresh, op m = some (.accept fresh) → fresh.length = 32) (c n : Nat) (hs : ∀ m, n ≤ m → inExchange (σ m) = [c]) :
    (∀ m, n ≤ m → heardFrom (σ m) < 32 ∧ hungUp (σ m) = false) ∨ ∃ n', ∀ m, n' ≤ m → ∀ k as, op m = some (.exchange (.poll k as)) → ¬ Answers as := by
  apply Classical.byContradiction
  intro hno
  simp only [not_or] at hno
  obtain ⟨h1, h2⟩ := hno
  simp only [Classical.not_forall] at h1
  obtain ⟨n1, hn1, hg⟩ := h1
  have hph : ∀ m, n ≤ m → ∃ fresh side, (σ m).phase = .exchanging c fresh side := by
    intro m hm
    have := hs m hm
    unfold inExchange at this
    split at this
    · rename_i c' fresh side hp
      simp only [List.cons.injEq, and_true] at this
      subst this
      exact ⟨fresh, side, hp⟩
    · cases this
  obtain ⟨fresh, side0, hp0⟩ := hph n1 hn1
  have hfresh : ∀ m, n1 ≤ m → (σ m).phase = .exchanging c fresh (sideOf (σ m)) := by
    intro m hm
    induction hm with
    | refl => simp only [sideOf, hp0]
    | @step m hm ih =>
      have hm : n1 ≤ m := hm
      rcases (exchange_next h.run m ih (by rw [hs (m + 1) (by omega)]; simp)).1 with g | ⟨p, side', g1, g2, g3⟩
      · simp only [sideOf, g]
      · simp only [sideOf, g2]
  have hnext : ∀ m, n1 ≤ m → (sideOf (σ (m + 1)) = sideOf (σ m) ∨ ∃ p, (sideOf (σ m)).step (serverPoll A D keys fresh) p = some (sideOf (σ (m + 1)))) ∧
      ∀ k as, op m = some (.exchange (.poll k as)) → (sideOf (σ m)).step (serverPoll A D keys fresh) (.poll k as) = some (sideOf (σ (m + 1))) := by
    intro m hm
    obtain ⟨a, b⟩ := exchange_next h.run m (hfresh m hm) (by rw [hs (m + 1) (by omega)]; simp)
    refine ⟨?_, ?_⟩
    · rcases a with a | ⟨p, side', a, b, -⟩
      · left; rw [hfresh (m + 1) (by omega)] at a; injection a
      · right; rw [hfresh (m + 1) (by omega)] at b; injection b with _ _ b; exact ⟨p, by rw [b]; exact a⟩
    · intro k as ho
      obtain ⟨side', c1, c2⟩ := b k as ho
      rw [hfresh (m + 1) (by omega)] at c2; injection c2 with _ _ c2; rw [c2]; exact c1
  have hinv := fun m (hm : n1 ≤ m) => exchange_inv h.run hf m c fresh (sideOf (σ m)) (hfresh m hm)
  have hreads : ∀ a, n1 ≤ a → ∃ m, a ≤ m ∧ ∃ k as, op m = some (.exchange (.poll k as)) ∧ 0 < k := by
    intro a ha
    exact h.polls a fun m hm => by rw [hs m (by omega)]; simp
  by_cases hg' : heardFrom (σ n1) < 32
  · refine side_closed (x := fun m => sideOf (σ m)) (n := n1) (fun m hm => (hinv m hm).2.1) (fun m hm => (hinv m hm).2.2) (fun m hm => (hnext m hm).1) ?_ ?_
      (fun m k as => op m = some (.exchange (.poll k as))) (fun m hm k as => (hnext m hm).2 k as) hreads
    · unfold heardFrom at hg'
      rw [hfresh n1 (Nat.le_refl _)] at hg'
      exact hg'
    · have : ¬ hungUp (σ n1) = false := fun e => hg ⟨hg', e⟩
      unfold hungUp at this
      rw [hfresh n1 (Nat.le_refl _)] at this
      simpa using this
  apply h2
  have hg := Nat.le_of_not_lt hg'
  refine side_blocked (x := fun m => sideOf (σ m)) (n := n1) (hinv n1 (Nat.le_refl _)).1 (fun m hm => (hinv m hm).2.1) (fun m hm => (hinv m hm).2.2) (fun m hm => (hnext m hm).1) ?_
    (fun m k as => op m = some (.exchange (.poll k as))) (fun m hm k as => (hnext m hm).2 k as) ?_
  · unfold heardFrom at hg
    rw [hfresh n1 (Nat.le_refl _)] at hg
    exact hg
  · exact hreads

/-- **C74, all together.** If every client with which an encrypted server is in a key exchange sends its key, or closes the connection, at some time and goes on reading what it is sent, then everyone who connects is served, unless
the server ends. -/
theorem C74_encrypted (A : Aead) (D : DH) (keys : Keys) (σ : Nat → Server.State) (op : Nat → Option Server.Op) (h : FairServer A D (.encrypted keys) σ op)
    (hf : ∀ m fresh, op m = some (.accept fresh) → fresh.length = 32)
    (hsend : ∀ n c, (∀ m, n ≤ m → inExchange (σ m) = [c]) → ∃ m, n ≤ m ∧ (32 ≤ heardFrom (σ m) ∨ hungUp (σ m) = true))
    (hread : ∀ n c, (∀ m, n ≤ m → inExchange (σ m) = [c]) → ∃ m, n ≤ m ∧ ∃ k as, op m = some (.exchange (.poll k as)) ∧ Answers as)
    (n i c : Nat) (hc : (connected (firstSteps op n))[i]? = some c) :
    (∃ m session, (σ m).served[i]? = some (c, session)) ∨ ∃ m r, (σ m).phase = .ended r := by
  rcases C74_served A D _ σ op h n i c hc with h1 | h1 | ⟨c', n', h1⟩
  · exact Or.inl h1
  · exact Or.inr h1
  · exfalso
    rcases C74_stuck_only A D keys σ op h hf c' n' h1 with h2 | ⟨n'', h2⟩
    · obtain ⟨m, hm, hh⟩ := hsend n' c' h1
      obtain ⟨g1, g2⟩ := h2 m hm
      rcases hh with hh | hh
      · omega
      · rw [g2] at hh; cases hh
    · obtain ⟨m, hm, k, as, ho, ha⟩ := hread (max n' n'') c' fun m hm => h1 m (by omega)
      exact h2 m (by omega) k as ho ha

end

/-- **C74, key exchanges.** Two sides that trust each other, over an undisturbed connection, scheduled fairly, complete the key exchange, whatever the division of reads and writes is; and they stay so. -/
theorem C74_exchange (A : Aead) (D : DH) (sk ck : Keys) (fresh : Bytes) (hf : fresh.length = 32) (hsk : Trusts D sk (D.pub ck.secret)) (hck : Trusts D ck (D.pub sk.secret))
    (σ : Nat → Pair) (op : Nat → Option PairOp) (h : FairPair A D sk ck fresh σ op) :
    ∃ n s c, NewSession fresh s ∧ NewSession fresh c ∧ ∀ m, n ≤ m → (σ m).server.phase = .done s ∧ (σ m).client.phase = .done c := by
  have hrun := pair_prefix h.run
  have hfine := fun n => C41_completes A D sk ck fresh hf hsk hck (firstSteps op n) (fun o ho => by obtain ⟨m, hm⟩ := mem_firstSteps ho; exact h.noFault m o hm) (σ n) (hrun n)
  have hinv : ∀ n, PInv A D sk ck fresh (σ n) := fun n => PInv.init.run hf (hrun n)
  have hck' := trusts_iff.1 hck
  have hP := D.pub_len sk.secret
  have hcopen : ∀ n, (∀ st, (σ n).client.phase ≠ .done st) → COpen (σ n).client.phase := by
    intro n hn
    unfold COpen
    split
    · rename_i heq; exact hn _ heq
    · rename_i heq; exact (hfine n).2.1 _ heq
    · rename_i heq; exact (hfine n).2.2.2.1 heq
    · trivial
  have hsopen : ∀ n, (∀ st, (σ n).server.phase ≠ .done st) → SOpen (σ n).server.phase := by
    intro n hn
    unfold SOpen
    split
    · rename_i heq; exact hn _ heq
    · rename_i heq; exact (hfine n).1 _ heq
    · rename_i heq; exact (hfine n).2.2.1 heq
    · trivial
  have hsstep : ∀ m, ((σ (m + 1)).server = (σ m).server ∨ ∃ o, (σ m).server.step (serverPoll A D sk fresh) o = some (σ (m + 1)).server) ∧
      ∀ k as, op m = some (.server k as) → (σ m).server.step (serverPoll A D sk fresh) (.poll k as) = some (σ (m + 1)).server := by
    intro m
    have hn := h.run.next m
    cases ho : op m with
    | none => rw [ho] at hn; simp only at hn; rw [hn]; exact ⟨Or.inl rfl, by simp⟩
    | some o =>
      rw [ho] at hn
      obtain ⟨a, b⟩ := pstep_server hn
      exact ⟨a, fun k as e => b k as (Option.some.inj e)⟩
  have hcstep : ∀ m, ((σ (m + 1)).client = (σ m).client ∨ ∃ o, (σ m).client.step (clientPoll A D ck) o = some (σ (m + 1)).client) ∧
      ∀ k as, op m = some (.client k as) → (σ m).client.step (clientPoll A D ck) (.poll k as) = some (σ (m + 1)).client := by
    intro m
    have hn := h.run.next m
    cases ho : op m with
    | none => rw [ho] at hn; simp only at hn; rw [hn]; exact ⟨Or.inl rfl, by simp⟩
    | some o =>
      rw [ho] at hn
      obtain ⟨a, b⟩ := pstep_client hn
      exact ⟨a, fun k as e => b k as (Option.some.inj e)⟩
  have hsdone : ∀ n st, (σ n).server.phase = .done st → ∀ m, n ≤ m → (σ m).server.phase = .done st := by
    intro n st hn m hm
    induction hm with
    | refl => exact hn
    | step _ ih =>
      rcases (hsstep _).1 with g | ⟨o, g⟩
      · rw [g]; exact ih
      · exact sdone_step g ih
  have hcdone : ∀ n st, (σ n).client.phase = .done st → ∀ m, n ≤ m → (σ m).client.phase = .done st := by
    intro n st hn m hm
    induction hm with
    | refl => exact hn
    | step _ ih =>
      rcases (hcstep _).1 with g | ⟨o, g⟩
      · rw [g]; exact ih
      · exact cdone_step g ih
  have hcmono : ∀ m, COpen (σ m).client.phase → COpen (σ (m + 1)).client.phase →
      cmeas (σ m).client ≤ cmeas (σ (m + 1)).client ∧ clvl (σ m).client.phase ≤ clvl (σ (m + 1)).client.phase := by
    intro m h1 h2
    rcases (hcstep m).1 with g | ⟨o, g⟩
    · rw [g]; exact ⟨Nat.le_refl _, Nat.le_refl _⟩
    · obtain ⟨a, b, -⟩ := client_progress hf hP ((hinv m).honest hck') ((hinv (m + 1)).honest hck') (hinv m).client g h1 h2
      exact ⟨a, b⟩
  have hcbound : ∀ m, COpen (σ m).client.phase → cmeas (σ m).client ≤ 117 := fun m ho => cmeas_le hf hP ((hinv m).honest hck') (hinv m).client ho
  -- the client sends its key
  have hkeysent : ∃ n1, clvl (σ n1).client.phase = 1 := by
    apply Classical.byContradiction
    intro hno
    have h0 : ∀ m, clvl (σ m).client.phase = 0 := by
      intro m
      have : clvl (σ m).client.phase ≤ 1 := by unfold clvl; split <;> omega
      have : clvl (σ m).client.phase ≠ 1 := fun e => hno ⟨m, e⟩
      omega
    have hnd : ∀ m st, (σ m).client.phase ≠ .done st := by
      intro m st he
      have := h0 m
      rw [he] at this
      cases this
    have ho := fun m => hcopen m (hnd m)
    refine no_climb (n := 0) (f := fun m => cmeas (σ m).client) (fun m _ => (hcmono m (ho m) (ho (m + 1))).1) (fun m _ => hcbound m (ho m)) ?_
    intro m _
    obtain ⟨m', hm', k, as, hop, ha⟩ := h.clientWrites m fun m' _ => hnd m'
    exact ⟨m', hm', ((client_progress hf hP ((hinv m').honest hck') ((hinv (m' + 1)).honest hck') (hinv m').client ((hcstep m').2 k as hop) (ho m') (ho (m' + 1))).2.2 k as rfl).1 (h0 m') ha⟩
  obtain ⟨n1, hn1⟩ := hkeysent
  have hlvl : ∀ m, n1 ≤ m → clvl (σ m).client.phase = 1 := by
    intro m hm
    induction hm with
    | refl => exact hn1
    | @step m hm ih =>
      have hle1 : clvl (σ (m + 1)).client.phase ≤ 1 := by unfold clvl; split <;> omega
      by_cases hd : ∃ st, (σ (m + 1)).client.phase = .done st
      · obtain ⟨st, hd⟩ := hd; rw [hd]; rfl
      · have hnd : ∀ st, (σ (m + 1)).client.phase ≠ .done st := fun st e => hd ⟨st, e⟩
        have hnd' : ∀ st, (σ m).client.phase ≠ .done st := fun st e => hnd st (hcdone m st e (m + 1) (by omega))
        have := (hcmono m (hcopen m hnd') (hcopen _ hnd)).2
        exact Nat.le_antisymm hle1 (Nat.le_trans (Nat.le_of_eq ih.symm) this)
  have hgot : ∀ m, n1 ≤ m → 32 ≤ (σ m).server.got.length := by
    intro m hm
    have hsent : (σ m).client.sent = D.pub ck.secret := by
      have hl := hlvl m hm
      have hc := (hinv m).client
      cases hp : (σ m).client.phase with
      | sendPub r => rw [hp] at hl; cases hl
      | flushPub => rw [hp] at hl; cases hl
      | recvPub acc => rw [hp] at hc; exact hc.2.2
      | recvSecret st g => rw [hp] at hc; exact hc.1
      | done st => rw [hp] at hc; exact hc.1
      | failed e => exact absurd hp ((hfine m).2.1 e)
      | panicked => exact absurd hp (hfine m).2.2.2.1
    rw [(hinv m).c2s, List.length_append, hsent, D.pub_len]
    omega
  -- the server completes
  have hserver : ∃ n2 st, n1 ≤ n2 ∧ (σ n2).server.phase = .done st := by
    apply Classical.byContradiction
    intro hno
    have hnd : ∀ m, n1 ≤ m → ∀ st, (σ m).server.phase ≠ .done st := fun m hm st e => hno ⟨m, st, hm, e⟩
    obtain ⟨n', hn'⟩ := side_blocked (x := fun m => (σ m).server) (n := n1) hf (fun m _ => (hinv m).server) (fun m hm => hsopen m (hnd m hm)) (fun m _ => (hsstep m).1)
      (hgot n1 (Nat.le_refl _)) (fun m k as => op m = some (.server k as)) (fun m _ k as => (hsstep m).2 k as) (fun a ha => h.serverReads a fun m hm => hnd m (by omega))
    obtain ⟨m, hm, k, as, ho, ha⟩ := h.serverWrites (max n1 n') fun m hm => hnd m (by omega)
    exact hn' m (by omega) k as ho ha
  obtain ⟨n2, s, hn2, hs⟩ := hserver
  have hcgot : ∀ m, n2 ≤ m → 84 ≤ (σ m).client.got.length := by
    intro m hm
    have hsv := (hinv m).server
    rw [hsdone n2 s hs m hm] at hsv
    obtain ⟨o, -, -, hsent⟩ := hsv
    rw [(hinv m).s2c, hsent]
    simp only [List.length_append, D.pub_len, length_secretPkg hf]
    omega
  -- the client completes
  have hclient : ∃ n3 st, n2 ≤ n3 ∧ (σ n3).client.phase = .done st := by
    apply Classical.byContradiction
    intro hno
    have hnd : ∀ m, n2 ≤ m → ∀ st, (σ m).client.phase ≠ .done st := fun m hm st e => hno ⟨m, st, hm, e⟩
    have ho := fun m hm => hcopen m (hnd m hm)
    refine no_climb (n := n2) (f := fun m => cmeas (σ m).client) (fun m hm => (hcmono m (ho m hm) (ho (m + 1) (by omega))).1) (fun m hm => hcbound m (ho m hm)) ?_
    intro m hm
    obtain ⟨m', hm', k, as, hop, hk⟩ := h.clientReads m fun m' hm' => hnd m' (by omega)
    refine ⟨m', hm', ((client_progress hf hP ((hinv m').honest hck') ((hinv (m' + 1)).honest hck') (hinv m').client ((hcstep m').2 k as hop) (ho m' (by omega))
      (ho (m' + 1) (by omega))).2.2 k as rfl).2 (hlvl m' (by omega)) hk ?_⟩
    intro h0
    have ht := (((hinv m').honest hck').taken hf hP (ho m' (by omega))).2.2.1
    have := hcgot m' (by omega)
    rw [h0, List.length_nil] at ht
    omega
  obtain ⟨n3, c, hn3, hc⟩ := hclient
  have hag := C41_agreement A D sk ck fresh hf (firstSteps op n3) (σ n3) (hrun n3) s c (hsdone n2 s hs n3 hn3) hc
  exact ⟨n3, s, c, hag.1, hag.2.1, fun m hm => ⟨hsdone n2 s hs m (by omega), hcdone n3 c hc m hm⟩⟩

/-! ### Cases -/

/-- The states of an execution that takes the steps `ops` and then rests. -/
def restStates {S O : Type} (step : S → O → Option S) (init : S) (ops : List O) (n : Nat) : S := (ops.take n).foldl (fun s o => (step s o).getD s) init

theorem rest_execution {S O : Type} (step : S → O → Option S) (init : S) (ops : List O)
    (hok : ∀ n o, ops[n]? = some o → step (restStates step init ops n) o ≠ none) :
    Execution step init (restStates step init ops) (fun n => ops[n]?) where
  start := by simp [restStates]
  next n := by
    cases ho : ops[n]? with
    | none =>
      have hl := List.getElem?_eq_none_iff.1 ho
      simp only [restStates]
      rw [List.take_of_length_le hl, List.take_of_length_le (by omega)]
    | some o =>
      have hs := hok n o ho
      obtain ⟨s', hs'⟩ := Option.ne_none_iff_exists'.1 hs
      simp only
      rw [hs']
      have : restStates step init ops (n + 1) = (step (restStates step init ops n) o).getD (restStates step init ops n) := by
        simp only [restStates, List.take_add_one, ho, Option.toList, List.foldl_append, List.foldl_cons, List.foldl_nil]
      rw [this, hs']
      rfl

theorem rest_later {S O : Type} {step : S → O → Option S} {init : S} {ops : List O} {n m : Nat} (hn : ops.length ≤ n) (hm : n ≤ m) :
    restStates step init ops m = restStates step init ops n := by
  simp only [restStates]
  rw [List.take_of_length_le hn, List.take_of_length_le (by omega)]

/-- A plain server with two clients. -/
def exServerOps : List Server.Op := [.connect 7, .bind (.ok ()), .accept [], .connect 8, .accept []]

theorem exServer_fair : FairServer toyAead toyDH .plain (restStates (Server.step toyAead toyDH .plain) {} exServerOps) (fun n => exServerOps[n]?) where
  run := rest_execution _ _ _ (by
    intro n o h
    have hn : n < 5 := (List.getElem?_eq_some_iff.1 h).1
    match n, hn with
    | 0, _ | 1, _ | 2, _ | 3, _ | 4, _ => cases h; simp [restStates, exServerOps, Server.step])
  binds := by
    intro n h
    obtain ⟨o, s', ⟨r, rfl⟩, hs⟩ := h (max n 5) (by omega)
    rw [rest_later (n := 5) (by decide) (by omega)] at hs
    simp [restStates, exServerOps, Server.step] at hs
  accepts := by
    intro n h
    obtain ⟨o, s', ⟨r, rfl⟩, hs⟩ := h (max n 5) (by omega)
    rw [rest_later (n := 5) (by decide) (by omega)] at hs
    simp [restStates, exServerOps, Server.step] at hs
  polls := by
    intro n h
    have := h (max n 5) (by omega)
    rw [rest_later (n := 5) (by decide) (by omega)] at this
    simp [restStates, exServerOps, Server.step, inExchange] at this

/-- So both clients get served. -/
example : ∃ m, (restStates (Server.step toyAead toyDH .plain) {} exServerOps m).served[1]? = some (8, none) :=
  C74_plain toyAead toyDH _ _ exServer_fair (by intro m e h; have := List.mem_of_getElem? h; simp [exServerOps] at this)
    (by intro m e h; have := List.mem_of_getElem? h; simp [exServerOps] at this) 5 1 8 (by decide)

/-- An encrypted server with a silent client, polled for ever, with another client waiting. -/
def exSilent (n : Nat) : Option Server.Op :=
  match n with
  | 0 => some (.bind (.ok ()))
  | 1 => some (.connect 7)
  | 2 => some (.accept exFresh)
  | 3 => some (.connect 8)
  | _ => some (.exchange (.poll 1 []))

def exSilentStates (n : Nat) : Server.State :=
  match n with
  | 0 => {}
  | 1 => { phase := .accepting }
  | 2 => { phase := .accepting, backlog := [7] }
  | 3 => { phase := .exchanging 7 exFresh serverInit }
  | _ => { phase := .exchanging 7 exFresh serverInit, backlog := [8] }

/-- It is scheduled fairly, and is stuck: the case of C74_served in which client 8 is never served. -/
example : FairServer toyAead toyDH (.encrypted exServerKeys) exSilentStates exSilent ∧ Stuck exSilentStates 7 ∧ ∀ m, (exSilentStates m).served = [] := by
  refine ⟨⟨⟨rfl, ?_⟩, ?_, ?_, ?_⟩, ⟨3, ?_⟩, ?_⟩
  · intro n
    match n with
    | 0 | 1 | 2 | 3 => rfl
    | n + 4 => rfl
  · intro n h
    obtain ⟨o, s', ⟨r, rfl⟩, hs⟩ := h (n + 4) (by omega)
    cases hs
  · intro n h
    obtain ⟨o, s', ⟨r, rfl⟩, hs⟩ := h (n + 4) (by omega)
    cases hs
  · intro n h
    exact ⟨n + 4, by omega, 1, [], rfl, by omega⟩
  · intro m hm
    match m, hm with
    | 3, _ => rfl
    | m + 4, _ => rfl
  · intro m
    match m with
    | 0 | 1 | 2 | 3 => rfl
    | m + 4 => rfl

/-- A fair key exchange: the steps of the case beside C41, and then rest. -/
def exPairOps : List PairOp := exOps ++ [.client 100 []]

theorem exPair_done : ∃ s c, (restStates (Pair.step toyAead toyDH exServerKeys exClientKeys exFresh) (Pair.init toyDH exClientKeys) exPairOps 9).server.phase = .done s ∧
    (restStates (Pair.step toyAead toyDH exServerKeys exClientKeys exFresh) (Pair.init toyDH exClientKeys) exPairOps 9).client.phase = .done c :=
  ⟨{ read := { dec := { key := exFresh } }, write := { enc := { key := exFresh, log := [{ key := toyDH.dh exSecretC (toyDH.pub exSecretS), nonce := List.replicate 12 0, plain := exFresh }] } } },
   { read := { dec := { key := exFresh } }, write := { enc := { key := exFresh } } }, by decide +kernel, by decide +kernel⟩

theorem exPair_fair : FairPair toyAead toyDH exServerKeys exClientKeys exFresh
    (restStates (Pair.step toyAead toyDH exServerKeys exClientKeys exFresh) (Pair.init toyDH exClientKeys) exPairOps) (fun n => exPairOps[n]?) := by
  obtain ⟨s, c, hs, hc⟩ := exPair_done
  have hS : ∀ n, 9 ≤ n → ∀ P : Prop, (∀ m, n ≤ m → ∀ st, (restStates (Pair.step toyAead toyDH exServerKeys exClientKeys exFresh) (Pair.init toyDH exClientKeys) exPairOps m).server.phase ≠ .done st) → P := by
    intro n hn P h
    exact absurd hs (by rw [← rest_later (m := n) (by decide) hn]; exact h n (Nat.le_refl _) s)
  have hC : ∀ n, 9 ≤ n → ∀ P : Prop, (∀ m, n ≤ m → ∀ st, (restStates (Pair.step toyAead toyDH exServerKeys exClientKeys exFresh) (Pair.init toyDH exClientKeys) exPairOps m).client.phase ≠ .done st) → P := by
    intro n hn P h
    exact absurd hc (by rw [← rest_later (m := n) (by decide) hn]; exact h n (Nat.le_refl _) c)
  refine ⟨rest_execution _ _ _ ?_, ?_, ?_, ?_, ?_, ?_⟩
  · intro n o h
    have hn : n < 9 := (List.getElem?_eq_some_iff.1 h).1
    match n, hn with
    | 0, _ | 1, _ | 2, _ | 3, _ | 4, _ | 5, _ | 6, _ | 7, _ | 8, _ =>
      cases h
      intro h
      have := congrArg Option.isNone h
      revert this
      decide +kernel
  · intro n o h
    have := List.mem_of_getElem? h
    simp only [exPairOps, exOps, List.cons_append, List.nil_append, List.mem_cons, List.not_mem_nil, or_false] at this
    rcases this with rfl | rfl | rfl | rfl | rfl | rfl | rfl | rfl | rfl <;> simp [NoFault]
  · exact fun n h => hS (max n 9) (by omega) _ fun m hm => h m (by omega)
  · exact fun n h => hS (max n 9) (by omega) _ fun m hm => h m (by omega)
  · exact fun n h => hC (max n 9) (by omega) _ fun m hm => h m (by omega)
  · exact fun n h => hC (max n 9) (by omega) _ fun m hm => h m (by omega)

/-- So both sides are done from some time on, with the same secret. -/
example : ∃ n s c, NewSession exFresh s ∧ NewSession exFresh c ∧ ∀ m, n ≤ m →
    (restStates (Pair.step toyAead toyDH exServerKeys exClientKeys exFresh) (Pair.init toyDH exClientKeys) exPairOps m).server.phase = .done s ∧
    (restStates (Pair.step toyAead toyDH exServerKeys exClientKeys exFresh) (Pair.init toyDH exClientKeys) exPairOps m).client.phase = .done c :=
  C74_exchange toyAead toyDH exServerKeys exClientKeys exFresh (by decide) (Or.inr (by decide)) (Or.inr (by decide)) _ _ exPair_fair

end Bromine.Props
