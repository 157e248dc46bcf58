import Verif.Lemmas.LayerPeerClient
/-
Key exchanges with an arbitrary peer: all layers.
-/
namespace Bromine.Layers
open Bromine CryptIO Spec Props
open Bromine.Handshake (DH Keys)

/-- A set-up with any peer. -/
structure Safely {τ ρ : Type} (c : Connecting τ ρ) (base : τ → Socket) (closed : Bool) (wire : Bytes) (fin : τ → ρ → Prop) (err : Error → Prop) (sent : Bytes → Prop) where
  inv : c.State → Prop
  init : ∀ sc : Script, sc.closed = closed → scriptBytes sc = wire → inv (c.init sc)
  sock_set : ∀ s k, c.sock (c.setSock s k) = k
  set : ∀ {s k}, inv s → k.wire = (c.sock s).wire → inv (c.setSock s k)
  sends : ∀ {s}, inv s → sent (c.sock s).wire
  poll : ∀ {s}, inv s → Safe base inv fin err sent (c.sock s).answers (c.poll s)

/-- One set-up after another. -/
def Safely.andThen {τ ρ φ τ' ρ' : Type} {c : Connecting τ ρ} {base : τ → Socket} {base' : τ' → Socket} {closed : Bool} {wire : Bytes} {fin : τ → ρ → Prop} {fin' : τ' → ρ' → Prop} {err err' : Error → Prop}
    {sent sent' : Bytes → Prop} {start : τ → ρ → Setup φ τ' ρ'} {next : φ → Setup φ τ' ρ'} {sock : φ → Socket} {set : Socket → φ → φ} (G : Safely c base closed wire fin err sent)
    (herr : ∀ e, err e → err' e) (hsent : ∀ b, sent b → sent' b) (pinv : φ → Prop)
    (hstart : ∀ w r, fin w r → Safe base' pinv fin' err' sent' (base w).answers (start w r))
    (hnext : ∀ {x}, pinv x → Safe base' pinv fin' err' sent' (sock x).answers (next x)) (hset : ∀ x k, sock (set k x) = k)
    (pset : ∀ {x k}, pinv x → k.wire = (sock x).wire → pinv (set k x)) (psent : ∀ {x}, pinv x → sent' (sock x).wire) :
    Safely (c.andThen start next sock set) base' closed wire fin' err' sent' where
  inv
    | .inl s => G.inv s
    | .inr x => pinv x
  init sc h1 h2 := G.init sc h1 h2
  sock_set
    | .inl s, k => G.sock_set s k
    | .inr x, k => hset x k
  set := by
    intro s k h hk
    cases s with
    | inl s => exact G.set h hk
    | inr x => exact pset h hk
  sends := by
    intro s h
    cases s with
    | inl s => exact hsent _ (G.sends h)
    | inr x => exact psent h
  poll := by
    intro s h
    cases s with
    | inr x =>
      have hn := hnext h
      simp only [Connecting.andThen]
      generalize next x = y at hn
      cases hn with
      | pending g => exact .pending g
      | done g1 g2 => exact .done g1 g2
      | failed g1 g2 => exact .failed g1 g2
    | inl s =>
      have hp := G.poll h
      simp only [Connecting.andThen]
      generalize c.poll s = y at hp
      cases hp with
      | pending g => exact .pending g
      | failed g1 g2 => exact .failed (g1.imp id (herr _)) (hsent _ g2)
      | @done w r g1 g2 =>
        have hn := (hstart w r g1).after g2
        dsimp only
        generalize start w r = y at hn
        cases hn with
        | pending g => exact .pending g
        | done g1 g2 => exact .done g1 g2
        | failed g1 g2 => exact .failed g1 g2

/-- What is known after any number of polls. -/
theorem Safely.run {τ ρ : Type} {c : Connecting τ ρ} {base : τ → Socket} {closed : Bool} {wire : Bytes} {fin : τ → ρ → Prop} {err : Error → Prop} {sent : Bytes → Prop} (G : Safely c base closed wire fin err sent) :
    ∀ (ps : List (List IoAns)) {b : Bool} {s : c.State}, G.inv s →
      (∃ b' s', c.run (.pending b s) ps = .pending b' s' ∧ G.inv s') ∨ (∃ w r, c.run (.pending b s) ps = .done w r ∧ fin w r) ∨
      ∃ e k, c.run (.pending b s) ps = .failed e k ∧ ((∃ as ∈ ps, ∃ x, e = .io x ∧ Fails as x) ∨ err e) ∧ sent k.wire := by
  intro ps
  induction ps with
  | nil => intro b s h; exact .inl ⟨b, s, rfl, h⟩
  | cons as ps ih =>
    intro b s h
    have hs := G.set (k := { c.sock s with answers := as }) h rfl
    have hp := G.poll hs
    rw [G.sock_set] at hp
    dsimp only at hp
    simp only [Connecting.run]
    generalize c.poll (c.setSock s { c.sock s with answers := as }) = y at hp
    cases hp with
    | @pending b s' g =>
      rcases ih (b := b) g with g | g | ⟨e, k, g1, g2, g3⟩
      · exact .inl g
      · exact .inr (.inl g)
      · exact .inr (.inr ⟨e, k, g1, g2.imp (fun ⟨as', i1, i2⟩ => ⟨as', List.mem_cons_of_mem _ i1, i2⟩) id, g3⟩)
    | @done w r g1 g2 => exact .inr (.inl ⟨w, r, by cases ps <;> rfl, g1⟩)
    | @failed e k g1 g2 => exact .inr (.inr ⟨e, k, by cases ps <;> rfl, g1.imp (fun ⟨x, i1, i2⟩ => ⟨as, by simp, x, i1, i2⟩) id, g2⟩)

theorem nonce_unique {i : Nat} {nonce : Bytes} (h : Nonce i nonce) : nonce = nonceFromNumber (UInt64.ofNat i) := by
  obtain ⟨nb, g1, rfl⟩ := h
  obtain ⟨nb', g3, g4⟩ := nonce_spec i
  rw [g4, bigEndian_unique g1 g3]

theorem notPackage_of {A : Aead} {key acc : Bytes} {i : Nat} (hc : complete acc = true) (hd : A.dec key (nonceFromNumber (UInt64.ofNat i)) (acc.drop 4) = none) : NotPackage A key i acc := by
  obtain ⟨h1, h2⟩ := complete_iff.1 hc
  refine ⟨acc.take 4, acc.drop 4, [], by rw [List.append_nil, List.take_append_drop], ?_, fun nonce hn => by rw [nonce_unique hn]; exact hd⟩
  rw [bigEndian_iff, List.length_take, List.length_drop]
  omega

/-! ### Client -/

section
variable (A : Aead) (D : DH) (closed : Bool) (wire : Bytes)

/-- What is known of the streams of the layers that a client has set up. -/
structure CInner (xs : List Exchange) (ss : List Bytes) (S : Sends (layersW A xs.length)) (V : Robust (layersR A xs.length) closed) : Prop where
  wrap : ∀ i f, S.wrap i f = wrapL A (clientLayers (withSessions xs ss)) i f
  len : (withSessions xs ss).length = xs.length
  halves : ∀ {i w}, S.idle i w → WriteHalves xs.length (afterPackages i (clientLayers (withSessions xs ss))) w
  sok : ∀ {n}, 0 < n → n + 20 * xs.length < 2 ^ 32 → S.ok n
  clean : xs = [] → V.clean
  hears : ∀ {r h}, V.ok r h → ∃ q, ClientHears A D wire xs ss (h ++ q) ∧ ReadsWith q xs.length ss r
  undec : ∀ {m}, V.undec m → ∀ x, ClientUndecipherable A D wire (x :: xs)
  calm : ∀ {r h}, V.ok r h → CalmR xs.length r

def CliPeerFin (xs : List Exchange) (w : WState xs.length) (r : RState xs.length) : Prop :=
  ∃ ss S V, CInner A D closed wire xs ss S V ∧ S.idle 0 w ∧ V.ok r [] ∧ ClientSends A D (withSessions xs ss) ((layersW A xs.length).base w).wire

def CliPeerErr (xs : List Exchange) (e : Error) : Prop :=
  (e = .io .unexpectedEof ∧ closed = true) ∨ (e = .io .invalidData ∧ ClientUndecipherable A D wire xs) ∨ ∃ key, e = .unknownPeer key ∧ ClientStranger A D wire xs key

def CliPeerSent (xs : List Exchange) (bs : Bytes) : Prop :=
  (xs = [] ∧ bs = []) ∨ ∃ ys x zs ss q out, xs = ys ++ x :: zs ∧ ClientHears A D wire zs ss q ∧ ClientSends A D (x :: withSessions zs ss) out ∧ bs <+: out

variable {A D closed wire}

theorem undec_cons {xs : List Exchange} (x : Exchange) (h : ClientUndecipherable A D wire xs) : ClientUndecipherable A D wire (x :: xs) := by
  obtain ⟨ys, y, zs, sessions, key, came, rest, read, rfl, h1, h2, h3, h4, pkgs, plains, part, h5, h6⟩ := h
  exact ⟨x :: ys, y, zs, sessions, key, came, rest, read, rfl, h1, h2, h3, h4, pkgs, plains, part, h5, h6.imp id fun h => ⟨by simp, h.2⟩⟩

theorem cliPeerErr_cons {xs : List Exchange} (x : Exchange) {e : Error} (h : CliPeerErr A D closed wire xs e) : CliPeerErr A D closed wire (x :: xs) e := by
  rcases h with h | ⟨h1, h2⟩ | ⟨key, h1, ys, y, zs, sessions, rest, rfl, h2⟩
  · exact .inl h
  · exact .inr (.inl ⟨h1, undec_cons x h2⟩)
  · exact .inr (.inr ⟨key, h1, x :: ys, y, zs, sessions, rest, rfl, h2⟩)

theorem cliPeerSent_cons {xs : List Exchange} (x : Exchange) {bs : Bytes} (h : CliPeerSent A D wire xs bs) : CliPeerSent A D wire (x :: xs) bs := by
  rcases h with ⟨rfl, rfl⟩ | ⟨ys, y, zs, ss, q, out, rfl, h⟩
  · exact .inr ⟨[], x, [], [], [], D.pub x.client.secret, rfl, List.nil_prefix, ⟨[], _, rfl, rfl, rfl⟩, List.nil_prefix⟩
  · exact .inr ⟨x :: ys, y, zs, ss, q, out, rfl, h⟩

/-- One more layer. -/
theorem CInner.cons {x : Exchange} {xs : List Exchange} {ss : List Bytes} {S : Sends (layersW A xs.length)} {V : Robust (layersR A xs.length) closed} (I : CInner A D closed wire xs ss S V) {key session kept0 plain0 : Bytes} {plains : List Bytes}
    (hk : key.length = 32) (ht : x.client.refuses D key = false) (hs : session.length = 32) (hp : Packages A (D.dh x.client.secret key) 0 plains kept0) (hf : plains.flatten = session ++ plain0) :
    CInner A D closed wire (x :: xs) (session :: ss) ((S.shift 1).layer A { key := session }) (V.layer A session key kept0 plain0) where
  wrap i f := by
    show S.wrap (1 + i) _ = wrapL A (afterPackages 1 (clientLayers (withSessions xs ss))) i _
    rw [I.wrap, wrapL_after]
  len := by
    show (withSessions xs ss).length + 1 = xs.length + 1
    rw [I.len]
  halves := by
    rintro k ⟨ws, t⟩ ⟨⟨lg, -, h1⟩, h2⟩
    have := I.halves h2
    refine ⟨⟨lg, h1⟩, ?_⟩
    have e : List.map (fun l : Layer => { l with start := l.start + k }) (afterPackages 1 (clientLayers (withSessions xs ss))) = afterPackages (1 + k) (clientLayers (withSessions xs ss)) := by
      simp [afterPackages, Nat.add_assoc]
    rw [show List.zipWith (fun (x : Exchange) s => { x with fresh := s }) xs ss = withSessions xs ss from rfl, e]
    exact this
  sok := by
    intro n h h'
    simp only [List.length_cons] at h'
    exact ⟨h, by omega, I.sok (by omega) (by omega)⟩
  clean h := by cases h
  hears := by
    rintro ⟨rs, r⟩ h ⟨came, kept, pkgs, acc, plains', h1, h2, h3, h4, h5, h6, h7, -⟩
    obtain ⟨rest, g1, g2⟩ := I.hears h1
    refine ⟨rs.remaining, ⟨key, came, rest, kept, kept0, pkgs, acc, plains, plains', g1, hk, trusts_iff.2 ht, ⟨h2, fun h => h3 (I.clean h)⟩, h4, hp, hs, ⟨plain0, hf.symm⟩, h5, ?_⟩, ?_, rfl, rest, g2⟩
    · rw [hf, List.append_assoc, h6]
    · show rs.dec.key = session
      rw [show rs.dec = _ from h7]
  calm h := h.calm
  undec := by
    rintro m (⟨m', h⟩ | ⟨r, came, kept, pkgs, acc, plains', h1, h2, h3, h4, h5, -, h6, h7⟩) y
    · exact undec_cons y (I.undec h x)
    · obtain ⟨rest, g1, -⟩ := I.hears h1
      exact ⟨[y], x, xs, ss, key, came, rest, kept, rfl, g1, hk, trusts_iff.2 ht, ⟨h2, fun h => h3 (I.clean h)⟩, kept0, plains, acc, hp, .inr ⟨by simp, session, pkgs, plains', hs, ⟨plain0, hf.symm⟩, h4, h5, notPackage_of h6 h7⟩⟩

end

/-- From one layer to all. -/
theorem csafe_up {A : Aead} {D : DH} {closed : Bool} {wire : Bytes} {x : Exchange} {xs : List Exchange} {ss : List Bytes} {S : Sends (layersW A xs.length)} {V : Robust (layersR A xs.length) closed} {out q : Bytes} {as : List IoAns}
    {y : Setup (CliPhase (WState xs.length) (RState xs.length)) (WState (x :: xs).length) (RState (x :: xs).length)} (I : CInner A D closed wire xs ss S V) (hq : ClientHears A D wire xs ss q) (ho : ClientSends A D (x :: withSessions xs ss) out)
    (h : CSafe S V A D x.client out as y) :
    Safe (layersW A (x :: xs).length).base (fun p => ∃ ss S V out, CInner A D closed wire xs ss S V ∧ (∃ q, ClientHears A D wire xs ss q) ∧ ClientSends A D (x :: withSessions xs ss) out ∧ CPeer S V A D x.client out p)
      (CliPeerFin A D closed wire (x :: xs)) (CliPeerErr A D closed wire (x :: xs)) (CliPeerSent A D wire (x :: xs)) as y := by
  refine h.mono (fun p hp => ⟨ss, S, V, out, I, ⟨q, hq⟩, ho, hp⟩) ?_ ?_ (fun b hb => .inr ⟨[], x, xs, ss, q, out, rfl, hq, ho, hb⟩)
  · rintro w r ⟨h0, key, session, kept0, plain0, plains, h1, h2, h3, h4, h5, h6, h7, -, -⟩
    refine ⟨session :: ss, _, _, I.cons h1 h2 h3 h4 h5, h6, h7, ?_⟩
    show ClientSends A D (x :: withSessions xs ss) ((layersW A xs.length).base w.2).wire
    rw [h0]
    exact ho
  · rintro e (h | ⟨h1, ⟨m, h2⟩ | ⟨key, h2, h3, r, came, kept, pkgs, acc, plains, g1, g2, g3, g4, g5, g6, g7, g8⟩⟩ | ⟨key, r, h1, h2, h3, h4⟩)
    · exact .inl h
    · exact .inr (.inl ⟨h1, I.undec h2 x⟩)
    · obtain ⟨rest, i1, -⟩ := I.hears g1
      exact .inr (.inl ⟨h1, [], x, xs, ss, key, came, rest, kept, rfl, i1, h2, trusts_iff.2 h3, ⟨g2, fun h => g3 (I.clean h)⟩, pkgs, plains, acc, g5, .inl ⟨g4, g6, notPackage_of g7 g8⟩⟩)
    · obtain ⟨rest, i1, -⟩ := I.hears h4
      exact .inr (.inr ⟨key, h1, [], x, xs, ss, rest, rfl, i1, h2, fun ht => by rw [trusts_iff.1 ht] at h3; cases h3⟩)

abbrev CliSafely (A : Aead) (D : DH) (closed : Bool) (wire : Bytes) (xs : List Exchange) : Type :=
  Safely (client A D xs) (layersW A xs.length).base closed wire (CliPeerFin A D closed wire xs) (CliPeerErr A D closed wire xs) (CliPeerSent A D wire xs)

theorem cli_safely (A : Aead) (D : DH) (closed : Bool) (wire : Bytes) : ∀ (xs : List Exchange), 68 + 20 * xs.length < 2 ^ 32 → Nonempty (CliSafely A D closed wire xs) := by
  intro xs
  induction xs with
  | nil =>
    intro _
    refine ⟨{ inv := fun s => s.1.wire = [] ∧ s.2.closed = closed ∧ scriptBytes s.2 = wire, init := fun sc h1 h2 => ⟨rfl, h1, h2⟩, sock_set := fun _ _ => rfl, set := fun h hk => ⟨hk.trans h.1, h.2⟩, sends := fun h => .inl ⟨rfl, h.1⟩, poll := ?_ }⟩
    rintro ⟨w, r⟩ ⟨h1, h2, h3⟩
    refine .done ⟨[], socketSends, socketRobust closed wire, ⟨fun _ _ => rfl, rfl, fun _ => trivial, fun h _ => h, fun _ => trivial, ?_, fun h => h.elim, fun _ => trivial⟩, trivial, ⟨h2, h3⟩, h1⟩ (List.suffix_refl _)
    rintro r h ⟨-, h⟩
    exact ⟨[], ⟨scriptBytes r, by rw [List.append_nil]; exact h⟩, rfl⟩
  | cons x xs ih =>
    intro hl
    simp only [List.length_cons] at hl
    obtain ⟨G⟩ := ih (by omega)
    refine ⟨G.andThen (fun e => cliPeerErr_cons x) (fun b => cliPeerSent_cons x)
      (fun p => ∃ ss S V out, CInner A D closed wire xs ss S V ∧ (∃ q, ClientHears A D wire xs ss q) ∧ ClientSends A D (x :: withSessions xs ss) out ∧ CPeer S V A D x.client out p) ?_ ?_ ?_ ?_ ?_⟩
    · rintro w r ⟨ss, S, V, I, h1, h2, h3⟩
      obtain ⟨q, hq, -⟩ := I.hears h2
      have ho : ClientSends A D (x :: withSessions xs ss) (((layersW A xs.length).base w).wire ++ S.wrap 0 (D.pub x.client.secret)) := by
        refine ⟨_, _, h3, ?_, rfl⟩
        rw [I.wrap]
        exact nested_wrapL A 0 _ (okL_small _ (by rw [D.pub_len]; omega) (by rw [D.pub_len, length_clientLayers, I.len]; omega))
      exact csafe_up I hq ho (cp_sendPub ⟨_, S.start h1 (I.sok (by rw [D.pub_len]; omega) (by rw [D.pub_len]; omega)), h2, rfl⟩)
    · rintro p ⟨ss, S, V, out, I, ⟨q, hq⟩, ho, hp⟩
      exact csafe_up I hq ho (cp_poll hp)
    · intro p k
      cases p <;> exact (cliSends A xs).base_set _ _
    · rintro p k ⟨ss, S, V, out, I, hq, ho, hp⟩ hk
      exact ⟨ss, S, V, out, I, hq, ho, cp_set hp hk⟩
    · rintro p ⟨ss, S, V, out, I, ⟨q, hq⟩, ho, hp⟩
      exact .inr ⟨[], x, xs, ss, q, out, rfl, hq, ho, cp_sent hp⟩

/-! ### Server -/

section
variable (A : Aead) (D : DH) (closed : Bool) (wire : Bytes)

/-- What is known of the streams of the layers that a server has set up. -/
structure SInner (xs : List Exchange) (ks : List Bytes) (S : Sends (layersW A xs.length)) (V : Robust (layersR A xs.length) closed) : Prop where
  wrap : ∀ i f, S.wrap i f = wrapL A (serverLayers xs) i f
  halves : ∀ {i w}, S.idle i w → WriteHalves xs.length (afterPackages i (serverLayers xs)) w
  sok : ∀ {n}, 0 < n → n + 20 * xs.length < 2 ^ 32 → S.ok n
  clean : xs = [] → V.clean
  hears : ∀ {r h}, V.ok r h → ∃ q, ServerHears A D wire xs ks (h ++ q) ∧ ReadsWith q xs.length (xs.map Exchange.fresh) r
  undec : ∀ {m}, V.undec m → ∀ x, ServerUndecipherable A D wire (x :: xs)
  calm : ∀ {r h}, V.ok r h → CalmR xs.length r

def SrvPeerFin (xs : List Exchange) (w : WState xs.length) (r : RState xs.length) : Prop :=
  ∃ ks S V, SInner A D closed wire xs ks S V ∧ S.idle 0 w ∧ V.ok r [] ∧ ServerAnswers A D xs ks ((layersW A xs.length).base w).wire

def SrvPeerErr (xs : List Exchange) (e : Error) : Prop :=
  (e = .io .unexpectedEof ∧ closed = true) ∨ (e = .io .invalidData ∧ ServerUndecipherable A D wire xs) ∨ ∃ key, e = .unknownPeer key ∧ ServerStranger A D wire xs key

def SrvPeerSent (xs : List Exchange) (bs : Bytes) : Prop :=
  ∃ ys zs ks q out, xs = ys ++ zs ∧ ServerHears A D wire zs ks q ∧ ServerAnswers A D zs ks out ∧ bs <+: out

variable {A D closed wire}

theorem srv_undec_cons {xs : List Exchange} (x : Exchange) (h : ServerUndecipherable A D wire xs) : ServerUndecipherable A D wire (x :: xs) := by
  obtain ⟨ys, y, zs, ks, key, came, rest, read, rfl, -, h⟩ := h
  exact ⟨x :: ys, y, zs, ks, key, came, rest, read, rfl, by simp, h⟩

theorem srvPeerErr_cons {xs : List Exchange} (x : Exchange) {e : Error} (h : SrvPeerErr A D closed wire xs e) : SrvPeerErr A D closed wire (x :: xs) e := by
  rcases h with h | ⟨h1, h2⟩ | ⟨key, h1, ys, y, zs, ks, rest, rfl, h2⟩
  · exact .inl h
  · exact .inr (.inl ⟨h1, srv_undec_cons x h2⟩)
  · exact .inr (.inr ⟨key, h1, x :: ys, y, zs, ks, rest, rfl, h2⟩)

theorem srvPeerSent_cons {xs : List Exchange} (x : Exchange) {bs : Bytes} (h : SrvPeerSent A D wire xs bs) : SrvPeerSent A D wire (x :: xs) bs := by
  obtain ⟨ys, zs, ks, q, out, rfl, h⟩ := h
  exact ⟨x :: ys, zs, ks, q, out, rfl, h⟩

/-- The layer has heard the key and nothing more. -/
theorem serverHears_met {x : Exchange} {xs : List Exchange} {ks : List Bytes} {S : Sends (layersW A xs.length)} {V : Robust (layersR A xs.length) closed} (I : SInner A D closed wire xs ks S V) {key : Bytes} {r : RState xs.length}
    (h : SMet V D x.server key r) : ServerHears A D wire (x :: xs) (key :: ks) [] := by
  obtain ⟨h1, h2, h3⟩ := h
  obtain ⟨rest, g1, -⟩ := I.hears h3
  exact ⟨[], rest, [], [], [], [], by rw [List.append_nil]; exact g1, h1, trusts_iff.2 h2, ⟨List.Sublist.refl _, fun _ => rfl⟩, rfl, rfl, rfl⟩

/-- One more layer. -/
theorem SInner.cons {x : Exchange} {xs : List Exchange} {ks : List Bytes} {S : Sends (layersW A xs.length)} {V : Robust (layersR A xs.length) closed} (I : SInner A D closed wire xs ks S V) {key : Bytes}
    (hk : key.length = 32) (ht : x.server.refuses D key = false) :
    SInner A D closed wire (x :: xs) (key :: ks) (sLayer S A x.fresh (D.dh x.server.secret key)) (V.layer A x.fresh key [] []) where
  wrap i f := by
    show S.wrap (2 + i) _ = wrapL A (afterPackages 2 (serverLayers xs)) i _
    rw [I.wrap, wrapL_after]
  halves := by
    rintro k ⟨ws, t⟩ ⟨j, ⟨lg, -, h1⟩, h2⟩
    have := I.halves h2
    refine ⟨⟨lg, h1⟩, ?_⟩
    have e : List.map (fun l : Layer => { l with start := l.start + k }) (afterPackages 2 (serverLayers xs)) = afterPackages (2 + k) (serverLayers xs) := by
      simp [afterPackages, Nat.add_assoc]
    rw [e]
    exact this
  sok := by
    intro n h h'
    simp only [List.length_cons] at h'
    exact ⟨h, by omega, I.sok (by omega) (by omega)⟩
  clean h := by cases h
  hears := by
    rintro ⟨rs, r⟩ h ⟨came, kept, pkgs, acc, plains, h1, h2, h3, h4, h5, h6, h7, -⟩
    obtain ⟨rest, g1, g2⟩ := I.hears h1
    refine ⟨rs.remaining, ⟨came, rest, kept, pkgs, acc, plains, g1, hk, trusts_iff.2 ht, ⟨h2, fun h => h3 (I.clean h)⟩, h4, h5, h6⟩, ?_, rfl, rest, g2⟩
    show rs.dec.key = x.fresh
    rw [show rs.dec = _ from h7]
  calm h := h.calm
  undec := by
    rintro m (⟨m', h⟩ | ⟨r, came, kept, pkgs, acc, plains, h1, h2, h3, h4, h5, -, h6, h7⟩) y
    · exact srv_undec_cons y (I.undec h x)
    · obtain ⟨rest, g1, -⟩ := I.hears h1
      exact ⟨[y], x, xs, ks, key, came, rest, kept, rfl, by simp, g1, hk, trusts_iff.2 ht, ⟨h2, fun h => h3 (I.clean h)⟩, pkgs, plains, acc, h4, h5, notPackage_of h6 h7⟩

end

theorem srv_sOut {A : Aead} {D : DH} {closed : Bool} {wire : Bytes} {x : Exchange} {xs : List Exchange} {ks : List Bytes} {S : Sends (layersW A xs.length)} {V : Robust (layersR A xs.length) closed} (I : SInner A D closed wire xs ks S V)
    (hf : x.fresh.length = 32) (hl : 88 + 20 * xs.length < 2 ^ 32) {before : Bytes} (hb : ServerAnswers A D xs ks before) (key : Bytes) : ServerAnswers A D (x :: xs) (key :: ks) (sOut S A D x.server x.fresh before key) := by
  refine ⟨before, _, _, _, hb, ?_, package_pkg A { key := D.dh x.server.secret key } 0 (by omega), ?_, rfl⟩
  · rw [I.wrap]
    exact nested_wrapL A 0 _ (okL_small _ (by rw [D.pub_len]; omega) (by rw [D.pub_len, length_serverLayers]; omega))
  · rw [I.wrap]
    exact nested_wrapL A 1 _ (okL_small _ (by rw [length_pkg _ _ _ (by omega)]; omega) (by rw [length_pkg _ _ _ (by omega), length_serverLayers]; omega))

/-- From one layer to all. -/
theorem ssafe_up {A : Aead} {D : DH} {closed : Bool} {wire : Bytes} {x : Exchange} {xs : List Exchange} {ks : List Bytes} {S : Sends (layersW A xs.length)} {V : Robust (layersR A xs.length) closed} {before q : Bytes} {as : List IoAns}
    (hf : x.fresh.length = 32) (hl : 88 + 20 * xs.length < 2 ^ 32)
    {y : Setup (SrvPhase (WState xs.length) (RState xs.length)) (WState (x :: xs).length) (RState (x :: xs).length)} (I : SInner A D closed wire xs ks S V) (hq : ServerHears A D wire xs ks q) (hb : ServerAnswers A D xs ks before)
    (h : SSafe S V A D x.server x.fresh before as y) :
    Safe (layersW A (x :: xs).length).base
      (fun p => ∃ ks S V before, SInner A D closed wire xs ks S V ∧ (∃ q, ServerHears A D wire xs ks q) ∧ ServerAnswers A D xs ks before ∧ SPeer S V A D x.server x.fresh before p)
      (SrvPeerFin A D closed wire (x :: xs)) (SrvPeerErr A D closed wire (x :: xs)) (SrvPeerSent A D wire (x :: xs)) as y := by
  refine h.mono (fun p hp => ⟨ks, S, V, before, I, ⟨q, hq⟩, hb, hp⟩) ?_ ?_ ?_
  · rintro w ⟨rs, r⟩ ⟨key, h1, h2, h3, h4⟩
    dsimp only at h1 h4
    refine ⟨key :: ks, _, _, I.cons h1.1 h1.2.1, h3, ⟨[], [], [], [], [], by rw [List.append_nil]; exact h1.2.2, List.Sublist.refl _, fun _ => rfl, rfl, rfl, by rw [h4]; rfl, by rw [h4]; rfl, .inl ⟨by rw [h4], rfl⟩⟩, ?_⟩
    show ServerAnswers A D (x :: xs) (key :: ks) ((layersW A xs.length).base w.2).wire
    rw [h2]
    exact srv_sOut I hf hl hb key
  · rintro e (h | ⟨h1, m, h2⟩ | ⟨key, r, h1, h2, h3, h4⟩)
    · exact .inl h
    · exact .inr (.inl ⟨h1, I.undec h2 x⟩)
    · obtain ⟨rest, i1, -⟩ := I.hears h4
      exact .inr (.inr ⟨key, h1, [], x, xs, ks, rest, rfl, i1, h2, fun ht => by rw [trusts_iff.1 ht] at h3; cases h3⟩)
  · rintro b (rfl | ⟨key, r, h1, h2⟩)
    · exact ⟨[x], xs, ks, q, _, rfl, hq, hb, List.prefix_refl _⟩
    · exact ⟨[], x :: xs, key :: ks, [], _, rfl, serverHears_met I h1, srv_sOut I hf hl hb key, h2⟩

abbrev SrvSafely (A : Aead) (D : DH) (closed : Bool) (wire : Bytes) (xs : List Exchange) : Type :=
  Safely (server A D xs) (layersW A xs.length).base closed wire (SrvPeerFin A D closed wire xs) (SrvPeerErr A D closed wire xs) (SrvPeerSent A D wire xs)

theorem srv_safely (A : Aead) (D : DH) (closed : Bool) (wire : Bytes) : ∀ (xs : List Exchange), ExchangeSized xs → Nonempty (SrvSafely A D closed wire xs) := by
  intro xs
  induction xs with
  | nil =>
    intro _
    refine ⟨{ inv := fun s => s.1.wire = [] ∧ s.2.closed = closed ∧ scriptBytes s.2 = wire, init := fun sc h1 h2 => ⟨rfl, h1, h2⟩, sock_set := fun _ _ => rfl, set := fun h hk => ⟨hk.trans h.1, h.2⟩, sends := fun h => ⟨[], [], [], [], [], rfl, List.nil_prefix, rfl, ⟨[], by rw [List.append_nil]; exact h.1⟩⟩, poll := ?_ }⟩
    rintro ⟨w, r⟩ ⟨h1, h2, h3⟩
    refine .done ⟨[], socketSends, socketRobust closed wire, ⟨fun _ _ => rfl, fun _ => trivial, fun h _ => h, fun _ => trivial, ?_, fun h => h.elim, fun _ => trivial⟩, trivial, ⟨h2, h3⟩, h1⟩ (List.suffix_refl _)
    rintro r h ⟨-, h⟩
    exact ⟨[], ⟨scriptBytes r, by rw [List.append_nil]; exact h⟩, rfl⟩
  | cons x xs ih =>
    intro hz
    obtain ⟨hf, hz', hl⟩ := hz.tail
    obtain ⟨G⟩ := ih hz'
    refine ⟨G.andThen (fun e => srvPeerErr_cons x) (fun b => srvPeerSent_cons x)
      (fun p => ∃ ks S V before, SInner A D closed wire xs ks S V ∧ (∃ q, ServerHears A D wire xs ks q) ∧ ServerAnswers A D xs ks before ∧ SPeer S V A D x.server x.fresh before p) ?_ ?_ ?_ ?_ ?_⟩
    · rintro w r ⟨ks, S, V, I, h1, h2, h3⟩
      obtain ⟨q, hq, -⟩ := I.hears h2
      exact ssafe_up hf hl I hq h3 (sp_recvPub hf (I.sok (by omega) (by omega)) (I.sok (by omega) (by omega)) ⟨h1, h2, by simp, rfl⟩)
    · rintro p ⟨ks, S, V, before, I, ⟨q, hq⟩, ho, hp⟩
      exact ssafe_up hf hl I hq ho (sp_poll hf (I.sok (by omega) (by omega)) (I.sok (by omega) (by omega)) hp)
    · intro p k
      cases p <;> exact (cliSends A xs).base_set _ _
    · rintro p k ⟨ks, S, V, before, I, hq, ho, hp⟩ hk
      exact ⟨ks, S, V, before, I, hq, ho, sp_set hp hk⟩
    · rintro p ⟨ks, S, V, before, I, ⟨q, hq⟩, ho, hp⟩
      rcases sp_sent hp with h | ⟨key, r, h1, h2⟩
      · exact ⟨[x], xs, ks, q, _, rfl, hq, ho, by rw [h]; exact List.prefix_refl _⟩
      · exact ⟨[], x :: xs, key :: ks, [], _, rfl, serverHears_met I h1, srv_sOut I hf hl ho key, h2⟩

end Bromine.Layers
