import Verif.Spec.LayerExchange
import Verif.Lemmas.LayerExchange
import Verif.Props.Layers
import Verif.Props.Handshake
/-
Setting up any number of encrypted layers.
-/
namespace Bromine.Layers
open Bromine CryptIO Spec Props
open Bromine.Handshake (DH Keys)

/-! ### The streams -/

theorem pkg_after (A : Aead) (l : Layer) (k i : Nat) (f : Bytes) : pkg A { l with start := l.start + k } i f = pkg A l (k + i) f := by
  simp only [pkg, Nat.add_assoc]

theorem wrapL_after (A : Aead) (k : Nat) : ∀ (ls : List Layer) (i : Nat) (f : Bytes), wrapL A (afterPackages k ls) i f = wrapL A ls (k + i) f := by
  intro ls
  induction ls with
  | nil => intro i f; rfl
  | cons l ls ih =>
    intro i f
    show wrapL A (afterPackages k ls) i (pkg A { l with start := l.start + k } i f) = _
    rw [ih, pkg_after]
    rfl

theorem length_after (k : Nat) (ls : List Layer) : (afterPackages k ls).length = ls.length := by simp [afterPackages]

theorem length_clientLayers (xs : List Exchange) : (clientLayers xs).length = xs.length := by
  induction xs with
  | nil => rfl
  | cons x xs ih => simp [clientLayers, length_after, ih]

theorem length_serverLayers (xs : List Exchange) : (serverLayers xs).length = xs.length := by
  induction xs with
  | nil => rfl
  | cons x xs ih => simp [serverLayers, length_after, ih]

theorem okL_small (ls : List Layer) {n : Nat} (h0 : 0 < n) (h : n + 20 * ls.length < 2 ^ 32) : okL ls n := by
  cases ls with
  | nil => exact h0
  | cons l ls => exact okL_of l ls h0 (by simp only [List.length_cons] at h; omega)

def cliSends (A : Aead) : (xs : List Exchange) → Sends (layersW A xs.length)
  | [] => socketSends
  | x :: xs => ((cliSends A xs).shift 1).layer A { key := x.fresh }

def cliReceives (A : Aead) (closed : Bool) : (xs : List Exchange) → Receives (layersR A xs.length) closed
  | [] => socketReceives closed
  | x :: xs => ((cliReceives A closed xs).shift 2).layer A { key := x.fresh }

def srvSends (A : Aead) (D : DH) : (xs : List Exchange) → Sends (layersW A xs.length)
  | [] => socketSends
  | x :: xs => sLayer (srvSends A D xs) A x.fresh (xkey D x.server (D.pub x.client.secret))

def srvReceives (A : Aead) (closed : Bool) : (xs : List Exchange) → Receives (layersR A xs.length) closed
  | [] => socketReceives closed
  | x :: xs => ((srvReceives A closed xs).shift 1).layer A { key := x.fresh }

theorem cliSends_wrap (A : Aead) : ∀ (xs : List Exchange) i f, (cliSends A xs).wrap i f = wrapL A (clientLayers xs) i f := by
  intro xs
  induction xs with
  | nil => intro i f; rfl
  | cons x xs ih =>
    intro i f
    show (cliSends A xs).wrap (1 + i) _ = wrapL A (afterPackages 1 (clientLayers xs)) i _
    rw [ih, wrapL_after]

theorem srvSends_wrap (A : Aead) (D : DH) : ∀ (xs : List Exchange) i f, (srvSends A D xs).wrap i f = wrapL A (serverLayers xs) i f := by
  intro xs
  induction xs with
  | nil => intro i f; rfl
  | cons x xs ih =>
    intro i f
    show (srvSends A D xs).wrap (2 + i) _ = wrapL A (afterPackages 2 (serverLayers xs)) i _
    rw [ih, wrapL_after]

theorem cliReceives_wrap (A : Aead) (closed : Bool) : ∀ (xs : List Exchange) i f, (cliReceives A closed xs).wrap i f = wrapL A (serverLayers xs) i f := by
  intro xs
  induction xs with
  | nil => intro i f; rfl
  | cons x xs ih =>
    intro i f
    show (cliReceives A closed xs).wrap (2 + i) _ = wrapL A (afterPackages 2 (serverLayers xs)) i _
    rw [ih, wrapL_after]

theorem srvReceives_wrap (A : Aead) (closed : Bool) : ∀ (xs : List Exchange) i f, (srvReceives A closed xs).wrap i f = wrapL A (clientLayers xs) i f := by
  intro xs
  induction xs with
  | nil => intro i f; rfl
  | cons x xs ih =>
    intro i f
    show (srvReceives A closed xs).wrap (1 + i) _ = wrapL A (afterPackages 1 (clientLayers xs)) i _
    rw [ih, wrapL_after]

theorem cliSends_ok (A : Aead) : ∀ (xs : List Exchange) {n : Nat}, 0 < n → n + 20 * xs.length < 2 ^ 32 → (cliSends A xs).ok n := by
  intro xs
  induction xs with
  | nil => intro n h _; exact h
  | cons x xs ih => intro n h h'; simp only [List.length_cons] at h'; exact ⟨h, by omega, ih (by omega) (by omega)⟩

theorem srvSends_ok (A : Aead) (D : DH) : ∀ (xs : List Exchange) {n : Nat}, 0 < n → n + 20 * xs.length < 2 ^ 32 → (srvSends A D xs).ok n := by
  intro xs
  induction xs with
  | nil => intro n h _; exact h
  | cons x xs ih => intro n h h'; simp only [List.length_cons] at h'; exact ⟨h, by omega, ih (by omega) (by omega)⟩

theorem cliReceives_ok (A : Aead) (closed : Bool) : ∀ (xs : List Exchange) {n : Nat}, 0 < n → n + 20 * xs.length < 2 ^ 32 → (cliReceives A closed xs).ok n := by
  intro xs
  induction xs with
  | nil => intro n h _; exact h
  | cons x xs ih => intro n h h'; simp only [List.length_cons] at h'; exact ⟨h, by omega, ih (by omega) (by omega)⟩

theorem srvReceives_ok (A : Aead) (closed : Bool) : ∀ (xs : List Exchange) {n : Nat}, 0 < n → n + 20 * xs.length < 2 ^ 32 → (srvReceives A closed xs).ok n := by
  intro xs
  induction xs with
  | nil => intro n h _; exact h
  | cons x xs ih => intro n h h'; simp only [List.length_cons] at h'; exact ⟨h, by omega, ih (by omega) (by omega)⟩

/-- All that the client sends. -/
def cliStream (A : Aead) (D : DH) : List Exchange → Bytes
  | [] => []
  | x :: xs => cliStream A D xs ++ wrapL A (clientLayers xs) 0 (D.pub x.client.secret)

/-- What the server sends for one more layer. -/
def srvPart (A : Aead) (D : DH) (x : Exchange) (xs : List Exchange) : Bytes :=
  wrapL A (serverLayers xs) 0 (D.pub x.server.secret) ++ wrapL A (serverLayers xs) 1 (pkg A { key := D.dh x.server.secret (D.pub x.client.secret) } 0 x.fresh)

/-- All that the server sends. -/
def srvStream (A : Aead) (D : DH) : List Exchange → Bytes
  | [] => []
  | x :: xs => srvStream A D xs ++ srvPart A D x xs

theorem _root_.Bromine.Spec.ExchangeSized.tail {x : Exchange} {xs : List Exchange} (h : ExchangeSized (x :: xs)) : x.fresh.length = 32 ∧ ExchangeSized xs ∧ 88 + 20 * xs.length < 2 ^ 32 := by
  obtain ⟨h1, h2⟩ := h
  simp only [List.length_cons] at h2
  exact ⟨h1 x (by simp), ⟨fun y hy => h1 y (by simp [hy]), by omega⟩, by omega⟩

theorem cliStream_spec (A : Aead) (D : DH) : ∀ {xs : List Exchange}, ExchangeSized xs → ClientSends A D xs (cliStream A D xs) := by
  intro xs
  induction xs with
  | nil => intro _; rfl
  | cons x xs ih =>
    intro h
    obtain ⟨h1, h2, h3⟩ := h.tail
    refine ⟨_, _, ih h2, nested_wrapL A 0 _ (okL_small _ ?_ ?_), rfl⟩
    · rw [D.pub_len]; omega
    · rw [D.pub_len, length_clientLayers]; omega

theorem srvStream_spec (A : Aead) (D : DH) : ∀ {xs : List Exchange}, ExchangeSized xs → ServerSends A D xs (srvStream A D xs) := by
  intro xs
  induction xs with
  | nil => intro _; rfl
  | cons x xs ih =>
    intro h
    obtain ⟨h1, h2, h3⟩ := h.tail
    refine ⟨_, _, _, _, ih h2, nested_wrapL A 0 _ (okL_small _ ?_ ?_), package_pkg A { key := D.dh x.server.secret (D.pub x.client.secret) } 0 (by omega), nested_wrapL A 1 _ (okL_small _ ?_ ?_), (List.append_assoc _ _ _).symm⟩
    · rw [D.pub_len]; omega
    · rw [D.pub_len, length_serverLayers]; omega
    · rw [length_pkg _ _ _ (by omega)]; omega
    · rw [length_pkg _ _ _ (by omega), length_serverLayers]; omega

theorem clientSends_unique {A : Aead} {D : DH} : ∀ {xs : List Exchange} {a b : Bytes}, ClientSends A D xs a → ClientSends A D xs b → a = b := by
  intro xs
  induction xs with
  | nil => intro a b h h'; rw [show a = [] from h, show b = [] from h']
  | cons x xs ih =>
    rintro a b ⟨c, p, h1, h2, rfl⟩ ⟨c', p', g1, g2, rfl⟩
    rw [ih h1 g1, nested_unique h2 g2]

theorem serverSends_unique {A : Aead} {D : DH} : ∀ {xs : List Exchange} {a b : Bytes}, ServerSends A D xs a → ServerSends A D xs b → a = b := by
  intro xs
  induction xs with
  | nil => intro a b h h'; rw [show a = [] from h, show b = [] from h']
  | cons x xs ih =>
    rintro a b ⟨c, p, k, q, h1, h2, h3, h4, rfl⟩ ⟨c', p', k', q', g1, g2, g3, g4, rfl⟩
    have e := package_unique h3 g3
    subst e
    rw [ih h1 g1, nested_unique h2 g2, nested_unique h4 g4]

/-! ### The set-ups -/

theorem Stepped.mono {σ τ ρ : Type} {W : WriteT τ Socket} {R : ReadT ρ} {sock : σ → Socket} {inv inv' : σ → Bytes → Nat → Prop} {fin fin' : τ → ρ → Prop} {good live good' live' push : Prop} {stop stop' : Error → Prop} {k : Socket} {r : Bytes} {m : Nat}
    {x : Setup σ τ ρ} (h : Stepped W R sock inv fin good live stop push k r m x) (hi : ∀ s r m, inv s r m → inv' s r m) (hf : ∀ w r, fin w r → fin' w r) (hg : good' → good) (hl : live' → live) (hs : ∀ e, stop e → stop' e) :
    Stepped W R sock inv' fin' good' live' stop' push k r m x := by
  cases h with
  | pending h1 h2 h3 h4 h5 => exact .pending (hi _ _ _ h1) h2 (fun h => h3 (hg h)) (fun h => h4 (hg h)) fun h => h5 (hl h)
  | done h1 h2 h3 => exact .done (hf _ _ h1) h2 fun h => h3 (hg h)
  | failed h1 h2 => exact .failed h1 fun h => (h2 (hg h)).imp id (hs _)
  | panicked h1 h2 => exact .panicked h1 fun h => h2 (hg h)

/-- The client is done. -/
def CliFin (A : Aead) (D : DH) (closed : Bool) (b : Bytes) (xs : List Exchange) (w : WState xs.length) (r : RState xs.length) : Prop :=
  Cmp b (srvStream A D xs) → ClientAdmits D xs ∧ (cliSends A xs).idle 0 w ∧ ∃ rest, b = srvStream A D xs ++ rest ∧ (cliReceives A closed xs).idle 0 r rest

def CliStop (A : Aead) (D : DH) (closed : Bool) (b : Bytes) (xs : List Exchange) (e : Error) : Prop :=
  (e = .io .unexpectedEof ∧ closed = true ∧ ¬ srvStream A D xs <+: b) ∨ ∃ x ∈ xs, e = .unknownPeer (D.pub x.server.secret) ∧ ¬ Trusts D x.client (D.pub x.server.secret)

abbrev CliGoes (A : Aead) (D : DH) (closed : Bool) (b : Bytes) (xs : List Exchange) : Type :=
  Goes (client A D xs) (layersW A xs.length) (layersR A xs.length) closed b (cliStream A D xs) (CliFin A D closed b xs) (Cmp b (srvStream A D xs)) (srvStream A D xs <+: b ∨ (Cmp b (srvStream A D xs) ∧ closed = true)) (CliStop A D closed b xs) xs.length

theorem cli_goes (A : Aead) (D : DH) (closed : Bool) (b : Bytes) : ∀ {xs : List Exchange}, ExchangeSized xs → Cmp b (srvStream A D xs.tail) → Nonempty (CliGoes A D closed b xs) := by
  intro xs
  induction xs with
  | nil =>
    intro _ _
    have G := connectedGoes closed b (Cmp b (srvStream A D [])) (srvStream A D [] <+: b ∨ (Cmp b (srvStream A D []) ∧ closed = true)) (CliStop A D closed b [])
    refine ⟨{ inv := G.inv, init := G.init, sock_init := G.sock_init, sock_set := G.sock_set, set := G.set, poll := fun h => ?_ }⟩
    refine (G.poll h).mono (fun _ _ _ h => h) (fun w r h => ?_) id id (fun _ h => h)
    exact fun _ => ⟨fun x hx => by simp at hx, trivial, b, by simp [srvStream], h⟩
  | cons x xs ih =>
    intro hs hb
    obtain ⟨hf, hs', hsm⟩ := hs.tail
    have hb : Cmp b (srvStream A D xs) := hb
    obtain ⟨G⟩ := ih hs' (hb.prefix_right (by cases xs <;> simp [srvStream]))
    have hcomm : xkey D x.client (D.pub x.server.secret) = D.dh x.server.secret (D.pub x.client.secret) := D.comm _ _
    have hex : cExpects (cliReceives A closed xs) A D x.client (D.pub x.server.secret) x.fresh = srvPart A D x xs := by
      simp only [cExpects, cKeyBytes, cliReceives_wrap, hcomm, srvPart]
    let pre := srvStream A D xs
    let b0 := b.drop pre.length
    let good := Cmp b (srvStream A D (x :: xs))
    have hb0 : pre <+: b → b = pre ++ b0 := fun h => (List.prefix_iff_eq_append.1 h).symm
    have hlive : pre <+: b → (srvPart A D x xs <+: b0 ↔ srvStream A D (x :: xs) <+: b) := by
      intro h
      rw [hb0 h]
      exact (List.prefix_append_right_inj _).symm
    have hgood : pre <+: b → good → Cmp b0 (srvPart A D x xs) := by
      intro h hg
      have hg : Cmp b (pre ++ srvPart A D x xs) := hg
      rw [hb0 h] at hg
      exact hg.cancel
    have ok52 : (cliReceives A closed xs).ok 52 := cliReceives_ok A closed xs (by omega) (by omega)
    have ok32 : (cliReceives A closed xs).ok 32 := cliReceives_ok A closed xs (by omega) (by omega)
    have hadm : x.client.refuses D (D.pub x.server.secret) = false → ClientAdmits D xs → ClientAdmits D (x :: xs) := by
      intro h1 h2 y hy
      rcases List.mem_cons.1 hy with rfl | hy
      · exact trusts_iff.2 h1
      · exact h2 y hy
    have hstop : pre <+: b → ∀ e, CStop (closed := closed) (cliReceives A closed xs) A D x.client (D.pub x.server.secret) x.fresh b0 e → CliStop A D closed b (x :: xs) e := by
      rintro h e (⟨he, h1, h2⟩ | ⟨he, h1⟩)
      · rw [hex, hlive h] at h2
        exact .inl ⟨he, h1, h2⟩
      · refine .inr ⟨x, by simp, he, fun ha => ?_⟩
        rw [trusts_iff.1 ha] at h1
        cases h1
    let pinv : CliPhase (WState xs.length) (RState xs.length) → Bytes → Nat → Prop := fun p u m =>
      pre <+: b ∧ ClientAdmits D xs ∧ CInv (cliSends A xs) (cliReceives A closed xs) A D x.client (D.pub x.server.secret) x.fresh b0 good p u m
    have hfin : pre <+: b → ClientAdmits D xs → ∀ w r, CFin (cliSends A xs) (cliReceives A closed xs) A D x.client (D.pub x.server.secret) x.fresh b0 good w r → CliFin A D closed b (x :: xs) w r := by
      intro h1 h2 w r h hg
      obtain ⟨g1, g2, rest, g3, g4⟩ := h hg
      refine ⟨hadm g1 h2, g2, rest, ?_, g4⟩
      rw [hb0 h1, g3, hex]
      show _ = pre ++ srvPart A D x xs ++ rest
      rw [List.append_assoc]
    have hlg : srvStream A D (x :: xs) <+: b ∨ (good ∧ closed = true) → good := fun h => h.elim .inr And.left
    refine ⟨Goes.andThen G hb (fun h => h.imp (fun h => (List.prefix_append _ _).trans h) fun h => ⟨hb, h.2⟩) ?_ hlg pinv ?_ ?_ ?_ ?_ (out' := wrapL A (clientLayers xs) 0 (D.pub x.client.secret)) (d' := 0)⟩
    · rintro e (⟨he, h1, h2⟩ | ⟨y, hy, h⟩)
      · exact .inl ⟨he, h1, fun h => h2 ((List.prefix_append _ _).trans h)⟩
      · exact .inr ⟨y, by simp [hy], h⟩
    · intro w r hfin0
      obtain ⟨h1, h2, rest, h3, h4⟩ := hfin0 hb
      have hpre : pre <+: b := ⟨rest, h3.symm⟩
      have hrest : rest = b0 := by
        have := hb0 hpre
        rw [h3] at this
        exact List.append_cancel_left this
      subst hrest
      have hst := (cliSends A xs).start (f := D.pub x.client.secret) h2 (cliSends_ok A xs (by rw [D.pub_len]; omega) (by rw [D.pub_len]; omega))
      rw [cliSends_wrap] at hst
      have := c_sendPub (S := cliSends A xs) (V := cliReceives A closed xs) (A := A) (D := D) (keys := x.client) (pubS := D.pub x.server.secret) (fresh := x.fresh) (b0 := b0) (good := good) hf ok52 ok32 (D.pub_len _)
        (by rw [hex]; exact hgood hpre) (by rw [hex]; exact fun h => hlg (h.imp (hlive hpre).1 id)) ⟨hst, h4, rfl⟩
      exact this.mono (fun _ _ _ h => ⟨hpre, h1, h⟩) (hfin hpre h1) id (by rw [hex]; exact fun h => h.imp (hlive hpre).2 id) (hstop hpre)
    · rintro p u m ⟨hpre, h1, h2⟩
      have := c_poll hf ok52 ok32 (D.pub_len _) (by rw [hex]; exact hgood hpre) (by rw [hex]; exact fun h => hlg (h.imp (hlive hpre).1 id)) h2
      exact this.mono (fun _ _ _ h => ⟨hpre, h1, h⟩) (hfin hpre h1) id (by rw [hex]; exact fun h => h.imp (hlive hpre).2 id) (hstop hpre)
    · intro p k
      cases p <;> exact (cliSends A xs).base_set _ _
    · rintro p u m k ⟨h1, h2, h3⟩
      exact ⟨h1, h2, h3.set k⟩

/-- The server is done. -/
def SrvFin (A : Aead) (D : DH) (closed : Bool) (b : Bytes) (xs : List Exchange) (w : WState xs.length) (r : RState xs.length) : Prop :=
  ServerAdmits D xs ∧ (srvSends A D xs).idle 0 w ∧ ∃ rest, b = cliStream A D xs ++ rest ∧ (srvReceives A closed xs).idle 0 r rest

def SrvStop (A : Aead) (D : DH) (closed : Bool) (b : Bytes) (xs : List Exchange) (e : Error) : Prop :=
  (e = .io .unexpectedEof ∧ closed = true ∧ ¬ cliStream A D xs <+: b) ∨ ∃ x ∈ xs, e = .unknownPeer (D.pub x.client.secret) ∧ ¬ Trusts D x.server (D.pub x.client.secret)

abbrev SrvGoes (A : Aead) (D : DH) (closed : Bool) (b : Bytes) (xs : List Exchange) : Type :=
  Goes (server A D xs) (layersW A xs.length) (layersR A xs.length) closed b (srvStream A D xs) (SrvFin A D closed b xs) True (cliStream A D xs <+: b ∨ closed = true) (SrvStop A D closed b xs) (2 * xs.length)

theorem srv_goes (A : Aead) (D : DH) (closed : Bool) (b : Bytes) : ∀ {xs : List Exchange}, ExchangeSized xs → Cmp b (cliStream A D xs) → Nonempty (SrvGoes A D closed b xs) := by
  intro xs
  induction xs with
  | nil =>
    intro _ _
    have G := connectedGoes closed b True (cliStream A D [] <+: b ∨ closed = true) (SrvStop A D closed b [])
    refine ⟨{ inv := G.inv, init := G.init, sock_init := G.sock_init, sock_set := G.sock_set, set := G.set, poll := fun h => ?_ }⟩
    refine (G.poll h).mono (fun _ _ _ h => h) (fun w r h => ?_) id id (fun _ h => h)
    exact ⟨fun x hx => by simp at hx, trivial, b, by simp [cliStream], h⟩
  | cons x xs ih =>
    intro hs hb
    obtain ⟨hf, hs', hsm⟩ := hs.tail
    obtain ⟨G⟩ := ih hs' (hb.prefix_right (by simp [cliStream]))
    have hex : (srvReceives A closed xs).wrap 0 (D.pub x.client.secret) = wrapL A (clientLayers xs) 0 (D.pub x.client.secret) := srvReceives_wrap A closed xs _ _
    have hout : (srvSends A D xs).wrap 0 (D.pub x.server.secret) ++ sKeyBytes (srvSends A D xs) A D x.server (D.pub x.client.secret) x.fresh = srvPart A D x xs := by
      simp only [sKeyBytes, srvSends_wrap, srvPart]
    let pre := cliStream A D xs
    let b0 := b.drop pre.length
    have hb0 : pre <+: b → b = pre ++ b0 := fun h => (List.prefix_iff_eq_append.1 h).symm
    have hlive : pre <+: b → (wrapL A (clientLayers xs) 0 (D.pub x.client.secret) <+: b0 ↔ cliStream A D (x :: xs) <+: b) := by
      intro h
      rw [hb0 h]
      exact (List.prefix_append_right_inj _).symm
    have hcmp : pre <+: b → Cmp b0 (wrapL A (clientLayers xs) 0 (D.pub x.client.secret)) := by
      intro h
      have hg : Cmp b (pre ++ wrapL A (clientLayers xs) 0 (D.pub x.client.secret)) := hb
      rw [hb0 h] at hg
      exact hg.cancel
    have ok52 : (srvSends A D xs).ok 52 := srvSends_ok A D xs (by omega) (by omega)
    have ok32 : (srvSends A D xs).ok 32 := srvSends_ok A D xs (by omega) (by omega)
    have okr : (srvReceives A closed xs).ok 32 := srvReceives_ok A closed xs (by omega) (by omega)
    have hadm : x.server.refuses D (D.pub x.client.secret) = false → ServerAdmits D xs → ServerAdmits D (x :: xs) := by
      intro h1 h2 y hy
      rcases List.mem_cons.1 hy with rfl | hy
      · exact trusts_iff.2 h1
      · exact h2 y hy
    have hstop : pre <+: b → ∀ e, SStop (closed := closed) (srvReceives A closed xs) D x.server (D.pub x.client.secret) b0 e → SrvStop A D closed b (x :: xs) e := by
      rintro h e (⟨he, h1, h2⟩ | ⟨he, h1⟩)
      · rw [hex, hlive h] at h2
        exact .inl ⟨he, h1, h2⟩
      · refine .inr ⟨x, by simp, he, fun ha => ?_⟩
        rw [trusts_iff.1 ha] at h1
        cases h1
    let pinv : SrvPhase (WState xs.length) (RState xs.length) → Bytes → Nat → Prop := fun p u m =>
      pre <+: b ∧ ServerAdmits D xs ∧ SInv (srvSends A D xs) (srvReceives A closed xs) A D x.server (D.pub x.client.secret) x.fresh b0 p u m
    have hfin : pre <+: b → ServerAdmits D xs → ∀ w r, SFin (srvSends A D xs) (srvReceives A closed xs) A D x.server (D.pub x.client.secret) x.fresh b0 w r → SrvFin A D closed b (x :: xs) w r := by
      rintro h1 h2 w r ⟨g1, g2, rest, g3, g4⟩
      refine ⟨hadm g1 h2, g2, rest, ?_, g4⟩
      rw [hb0 h1, g3, hex]
      show _ = pre ++ wrapL A (clientLayers xs) 0 (D.pub x.client.secret) ++ rest
      rw [List.append_assoc]
    refine ⟨Goes.andThen G trivial (fun h => h.imp (fun h => (List.prefix_append _ _).trans h) id) ?_ (fun _ => trivial) pinv ?_ ?_ ?_ ?_ (out' := srvPart A D x xs) (d' := 1)⟩
    · rintro e (⟨he, h1, h2⟩ | ⟨y, hy, h⟩)
      · exact .inl ⟨he, h1, fun h => h2 ((List.prefix_append _ _).trans h)⟩
      · exact .inr ⟨y, by simp [hy], h⟩
    · rintro w r ⟨h1, h2, rest, h3, h4⟩
      have hpre : pre <+: b := ⟨rest, h3.symm⟩
      have hrest : rest = b0 := by
        have := hb0 hpre
        rw [h3] at this
        exact List.append_cancel_left this
      subst hrest
      obtain ⟨av, j1, j2, j3⟩ := (srvReceives A closed xs).begin (f := D.pub x.client.secret) (q := []) h4 (by rw [D.pub_len]; exact okr) (by rw [List.append_nil, hex]; exact hcmp hpre)
      have := s_recvPub (S := srvSends A D xs) (V := srvReceives A closed xs) (A := A) (D := D) (keys := x.server) (pubC := D.pub x.client.secret) (fresh := x.fresh) (b0 := b0) (acc := []) hf ok52 ok32 (D.pub_len _)
        ⟨h2, rfl, rfl, D.pub x.client.secret, av, rfl, j1, fun rest h => (j2 rest h).1, j3⟩
      rw [hout] at this
      exact this.mono (fun _ _ _ h => ⟨hpre, h1, h⟩) (hfin hpre h1) id (by rw [hex]; exact fun h => h.imp (hlive hpre).2 id) (hstop hpre)
    · rintro p u m ⟨hpre, h1, h2⟩
      have := s_poll hf ok52 ok32 (D.pub_len _) h2
      exact this.mono (fun _ _ _ h => ⟨hpre, h1, h⟩) (hfin hpre h1) id (by rw [hex]; exact fun h => h.imp (hlive hpre).2 id) (hstop hpre)
    · intro p k
      cases p <;> exact (srvSends A D xs).base_set _ _
    · rintro p u m k ⟨h1, h2, h3⟩
      exact ⟨h1, h2, h3.set k⟩

/-! ### Runs -/

/-- The result of some polls. -/
inductive Ran {σ τ ρ : Type} (W : WriteT τ Socket) (R : ReadT ρ) (sock : σ → Socket) (inv : σ → Bytes → Nat → Prop) (fin : τ → ρ → Prop) (good live : Prop) (stop : Error → Prop) (wire r : Bytes) (m : Nat) (ps : List (List IoAns)) :
    Setup σ τ ρ → Prop
  | pending {b s' r' m'} : inv s' r' m' → (∃ d, r = d ++ r' ∧ (sock s').wire = wire ++ d) → (good → m' ≤ m) → (good → b = true) → (good → live → m' + ps.countP takesSome ≤ m) →
      Ran W R sock inv fin good live stop wire r m ps (.pending b s')
  | done {w x} : fin w x → (W.base w).wire = wire ++ r → Ran W R sock inv fin good live stop wire r m ps (.done w x)
  | failed {e k' r'} : (∃ d, r = d ++ r' ∧ k'.wire = wire ++ d) → (good → (∃ as ∈ ps, ∃ x, e = .io x ∧ Fails as x) ∨ stop e) → Ran W R sock inv fin good live stop wire r m ps (.failed e k')
  | panicked {k' r'} : (∃ d, r = d ++ r' ∧ k'.wire = wire ++ d) → ¬ good → Ran W R sock inv fin good live stop wire r m ps (.panicked k')

theorem takesSome_iff {as : List IoAns} : takesSome as = true ↔ HeadReady as := by
  constructor
  · intro h
    unfold takesSome at h
    split at h
    · exact ⟨_, _, rfl⟩
    · cases h
  · rintro ⟨n, l, rfl⟩; rfl

theorem Goes.run {τ ρ : Type} {c : Connecting τ ρ} {W : WriteT τ Socket} {R : ReadT ρ} {closed : Bool} {b out : Bytes} {fin : τ → ρ → Prop} {good live : Prop} {stop : Error → Prop} {d : Nat} (G : Goes c W R closed b out fin good live stop d)
    : ∀ (ps : List (List IoAns)) (s : c.State) (r : Bytes) (m : Nat) (wk : Bool), (good → wk = true) → G.inv s r m →
      Ran W R c.sock G.inv fin good live stop (c.sock s).wire r m ps (c.run (.pending wk s) ps) := by
  intro ps
  induction ps with
  | nil =>
    intro s r m wk hw h
    exact .pending h ⟨[], rfl, by simp⟩ (fun _ => Nat.le_refl _) hw fun _ _ => by simp
  | cons as ps ih =>
    intro s r m wk hw h
    have hp := G.poll (G.set { c.sock s with answers := as } h)
    rw [G.sock_set] at hp
    simp only [Connecting.run]
    generalize c.poll (c.setSock s { c.sock s with answers := as }) = x at hp
    have hret : ∀ x : Setup c.State τ ρ, (∀ b s, x ≠ .pending b s) → c.run x ps = x := by
      intro x hx
      cases x with
      | pending b s => exact absurd rfl (hx b s)
      | done w r => unfold Connecting.run; rfl
      | failed e k => unfold Connecting.run; rfl
      | panicked k => unfold Connecting.run; rfl
    cases hp with
    | @pending b s' r' m' g1 g2 g3 g4 g5 =>
      have := ih s' r' m' b g4 g1
      obtain ⟨⟨d, e1, e2⟩, -⟩ := g2
      dsimp only at e2
      generalize c.run (.pending b s') ps = y at this
      cases this with
      | @pending b' s'' r'' m'' i1 i2 i3 i4 i5 =>
        obtain ⟨d', e3, e4⟩ := i2
        refine .pending i1 ⟨d ++ d', by rw [e1, e3, List.append_assoc], by rw [e4, e2, List.append_assoc]⟩ (fun h => Nat.le_trans (i3 h) (g3 h)) i4 fun hg hl => ?_
        have h5 := i5 hg hl
        have h3 := g3 hg
        rw [List.countP_cons]
        split
        · rename_i ht
          have := g5 hl (takesSome_iff.1 ht)
          omega
        · omega
      | done i1 i2 => exact .done i1 (by rw [i2, e2, e1, List.append_assoc])
      | failed i1 i2 =>
        obtain ⟨d', e3, e4⟩ := i1
        exact .failed ⟨d ++ d', by rw [e1, e3, List.append_assoc], by rw [e4, e2, List.append_assoc]⟩ fun h => (i2 h).imp (fun ⟨as, h1, h2⟩ => ⟨as, by simp [h1], h2⟩) id
      | panicked i1 i2 =>
        obtain ⟨d', e3, e4⟩ := i1
        exact .panicked ⟨d ++ d', by rw [e1, e3, List.append_assoc], by rw [e4, e2, List.append_assoc]⟩ i2
    | done g1 g2 g3 =>
      rw [hret _ (by intro b s h; cases h)]
      obtain ⟨⟨d, e1, e2⟩, -⟩ := g2
      rw [List.append_nil] at e1
      exact .done g1 (by rw [e2, e1])
    | @failed e k' r' g1 g2 =>
      rw [hret _ (by intro b s h; cases h)]
      exact .failed g1.wire fun h => (g2 h).imp (fun h => ⟨as, by simp, h⟩) id
    | panicked g1 g2 =>
      rw [hret _ (by intro b s h; cases h)]
      exact .panicked g1.wire g2

theorem Goes.runs {τ ρ : Type} {c : Connecting τ ρ} {W : WriteT τ Socket} {R : ReadT ρ} {b out : Bytes} {fin : τ → ρ → Prop} {good live : Prop} {stop : Error → Prop} {d : Nat} {sc : Script} (G : Goes c W R sc.closed b out fin good live stop d)
    (hb : flat sc.chunks = b) (ps : List (List IoAns)) : Ran W R c.sock G.inv fin good live stop [] out (out.length + sc.chunks.length + d) ps (c.runs sc ps) := by
  have := G.run ps (c.init sc) out _ true (fun _ => rfl) (G.init sc rfl hb)
  rw [G.sock_init] at this
  exact this

theorem Ran.sent {σ τ ρ : Type} {W : WriteT τ Socket} {R : ReadT ρ} {sock : σ → Socket} {inv : σ → Bytes → Nat → Prop} {fin : τ → ρ → Prop} {good live : Prop} {stop : Error → Prop} {r : Bytes} {m : Nat} {ps : List (List IoAns)}
    {x : Setup σ τ ρ} (h : Ran W R sock inv fin good live stop [] r m ps x) : x.sent sock W.base <+: r ∧ (x.isDone = true → x.sent sock W.base = r) := by
  cases h with
  | pending h1 h2 h3 h4 h5 =>
    obtain ⟨d, e1, e2⟩ := h2
    exact ⟨by rw [e1]; simp only [Setup.sent, e2, List.nil_append]; exact List.prefix_append _ _, fun h => by cases h⟩
  | done h1 h2 => exact ⟨by simp only [Setup.sent, h2, List.nil_append]; exact List.prefix_rfl, fun _ => h2⟩
  | failed h1 h2 =>
    obtain ⟨d, e1, e2⟩ := h1
    exact ⟨by rw [e1]; simp only [Setup.sent, e2, List.nil_append]; exact List.prefix_append _ _, fun h => by cases h⟩
  | panicked h1 h2 =>
    obtain ⟨d, e1, e2⟩ := h1
    exact ⟨by rw [e1]; simp only [Setup.sent, e2, List.nil_append]; exact List.prefix_append _ _, fun h => by cases h⟩

end Bromine.Layers
