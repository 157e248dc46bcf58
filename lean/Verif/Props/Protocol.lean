import Verif.Lemmas.Protocol
import Verif.Props.Handshake
import Verif.Props.Builder
/-
C72: which calls the protocols make, with which options, and what comes of them.
-/
namespace Bromine.Props
open Bromine Bromine.Spec Bromine.Protocol Bromine.Handshake

variable {Addr : Type}

/-- Options are some encrypted layers around a TCP or unix socket. -/
theorem options_layered (o : Options) : ∃ base ks, o = layered base ks ∧ (base = .unix ∨ ∃ ttl, base = .tcp ttl) := by
  induction o with
  | tcp ttl => exact ⟨_, [], rfl, Or.inr ⟨ttl, rfl⟩⟩
  | unix => exact ⟨_, [], rfl, Or.inl rfl⟩
  | encrypted inner k ih =>
    obtain ⟨b, ks, rfl, hb⟩ := ih
    exact ⟨b, ks ++ [k], by simp [layered], hb⟩

theorem layered_concat (base : Options) (ks : List Keys) (k : Keys) : layered base (ks ++ [k]) = .encrypted (layered base ks) k := by simp [layered]

/-- The listener that a bind with these options gives. -/
def listenerOf (base : Listener) (ks : List Keys) : Listener := ks.foldl .encrypted base

theorem listenerOf_concat (base : Listener) (ks : List Keys) (k : Keys) : listenerOf base (ks ++ [k]) = .encrypted (listenerOf base ks) k := by simp [listenerOf]

theorem zip_concat {γ : Type} (f : Nat → Keys → γ) (ks : List Keys) (k : Keys) :
    (ks ++ [k]).mapIdx f = ks.mapIdx f ++ [f ks.length k] := by simp

theorem bind_does_tcp (a : Addr) (ttl : Option UInt32) : Does (bind a (.tcp ttl)) (.bind a :: ttlCall ttl) (· = .tcp) := by
  cases ttl with
  | none => exact (does_call (.bind a)).andThen (q := []) fun _ _ => does_pure rfl
  | some t => exact (does_call (.bind a)).andThen (q := [.setTtl t]) fun _ _ => (does_call (.setTtl t)).andThen (q := []) fun _ _ => does_pure rfl

theorem connect_does_tcp (a : Addr) (ttl : Option UInt32) : Does (connect a (.tcp ttl)) (.connect a :: ttlCall ttl) (· = .tcp) := by
  cases ttl with
  | none => exact (does_call (.connect a)).andThen (q := []) fun _ _ => does_pure rfl
  | some t => exact (does_call (.connect a)).andThen (q := [.setTtl t]) fun _ _ => (does_call (.setTtl t)).andThen (q := []) fun _ _ => does_pure rfl

theorem bind_does (a : Addr) (base : Options) (l : Listener) (plan : List (Call Addr)) (h : Does (bind a base) plan (· = l)) (ks : List Keys) :
    Does (bind a (layered base ks)) plan (· = listenerOf l ks) := by
  induction ks using list_reverse_ind with
  | h0 => exact h
  | h1 ks k ih =>
    rw [layered_concat, listenerOf_concat]
    have := ih.andThen (f := fun l => Action.pure (Listener.encrypted l k)) (q := []) (Q := (· = Listener.encrypted (listenerOf l ks) k)) fun a ha => does_pure (by rw [ha])
    simpa [Protocol.bind] using this

theorem accept_does (base : Listener) (bo : Options) (h : Does (Addr := Addr) (accept base) [.accept] fun s => s.layers = 0 ∧ s = streamOf bo) (ks : List Keys) :
    Does (Addr := Addr) (accept (listenerOf base ks)) (.accept :: ks.mapIdx .serverExchange) fun s => s.layers = ks.length ∧ s = streamOf (layered bo ks) := by
  induction ks using list_reverse_ind with
  | h0 => exact h
  | h1 ks k ih =>
    rw [listenerOf_concat, zip_concat, accept, ← List.cons_append]
    refine ih.andThen fun s hs => ?_
    rw [hs.1]
    exact (does_call _).andThen (q := []) fun _ _ => does_pure ⟨by simp [Stream.layers, hs.1], by simp [layered, streamOf, hs.2]⟩

theorem connect_does (a : Addr) (base : Options) (plan : List (Call Addr)) (h : Does (connect a base) plan fun s => s.layers = 0 ∧ s = streamOf base) (ks : List Keys) :
    Does (connect a (layered base ks)) (plan ++ ks.mapIdx .clientExchange) fun s => s.layers = ks.length ∧ s = streamOf (layered base ks) := by
  induction ks using list_reverse_ind with
  | h0 => simpa [layered] using h
  | h1 ks k ih =>
    rw [layered_concat, zip_concat, connect, ← List.append_assoc]
    refine ih.andThen fun s hs => ?_
    rw [hs.1]
    exact (does_call _).andThen (q := []) fun _ _ => does_pure ⟨by simp [Stream.layers, hs.1], by simp [layered, streamOf, hs.2]⟩

/-! ### C72 -/

/-- C72, binding: whatever the encrypted layers, one `bind` to the given address, and then (TCP with a TTL) one `set_ttl` with that value. The result is `Ok` iff both
succeed; otherwise it is what the first one that failed returned. And a listener that was bound accepts with one `accept` and one key exchange per layer, from the innermost layer
outwards, each over the connection of the layers below and with the keys that were given for it when binding. The TTL is not set on accepted connections.
The stream is a TCP or unix stream, as the listener, in one encrypted stream per layer. -/
theorem C72_bind_accept (a : Addr) (base : Options) (plan : List (Call Addr))
    (hb : (base = .unix ∧ plan = [.bind a]) ∨ ∃ ttl, base = .tcp ttl ∧ plan = .bind a :: ttlCall ttl) (ks : List Keys) (w : World Addr) (h : List (Call Addr)) :
    (∃ r, Performs w h plan (bind a (layered base ks) w h).1 r ∧ Ends (fun _ => True) r (bind a (layered base ks) w h).2) ∧
    ∀ l, (bind a (layered base ks) w h).2 = .ok l → ∀ (w' : World Addr) (h' : List (Call Addr)),
      ∃ r, Performs w' h' (.accept :: ks.mapIdx .serverExchange) (accept l w' h').1 r ∧ Ends (fun s => s.layers = ks.length ∧ s = streamOf (layered base ks)) r (accept l w' h').2 := by
  obtain ⟨l0, h0, h0'⟩ : ∃ l0, Does (bind a base) plan (· = l0) ∧ Does (Addr := Addr) (accept l0) [.accept] fun s => s.layers = 0 ∧ s = streamOf base := by
    rcases hb with ⟨rfl, rfl⟩ | ⟨ttl, rfl, rfl⟩
    · exact ⟨.unix, (does_call (.bind a)).andThen (q := []) fun _ _ => does_pure rfl, (does_call .accept).andThen (q := []) fun _ _ => does_pure ⟨rfl, rfl⟩⟩
    · exact ⟨.tcp, bind_does_tcp a ttl, (does_call .accept).andThen (q := []) fun _ _ => does_pure ⟨rfl, rfl⟩⟩
  refine ⟨((bind_does a base l0 plan h0 ks).mono fun _ _ => trivial) w h, fun l hl w' h' => ?_⟩
  obtain ⟨r, -, g⟩ := bind_does a base l0 plan h0 ks w h
  rw [hl] at g
  rw [g.2]
  exact accept_does l0 base h0' ks w' h'

/-- C72, connecting: one `connect` to the given address, then `set_ttl` (TCP with a TTL) or `ready` (unix), then one key exchange per layer, from the innermost outwards. -/
theorem C72_connect (a : Addr) (base : Options) (plan : List (Call Addr))
    (hb : (base = .unix ∧ plan = [.connect a, .ready]) ∨ ∃ ttl, base = .tcp ttl ∧ plan = .connect a :: ttlCall ttl) (ks : List Keys) (w : World Addr)
    (h : List (Call Addr)) :
    ∃ r, Performs w h (plan ++ ks.mapIdx .clientExchange) (connect a (layered base ks) w h).1 r ∧
      Ends (fun s => s.layers = ks.length ∧ s = streamOf (layered base ks)) r (connect a (layered base ks) w h).2 := by
  refine connect_does a base plan ?_ ks w h
  rcases hb with ⟨rfl, rfl⟩ | ⟨ttl, rfl, rfl⟩
  · exact (does_call (.connect a)).andThen (q := [.ready]) fun _ _ => (does_call .ready).andThen (q := []) fun _ _ => does_pure ⟨rfl, rfl⟩
  · exact (connect_does_tcp a ttl).mono fun _ hs => by rw [hs]; exact ⟨rfl, rfl⟩

/-- What performing a plan means: with `Ok`, every call of the plan was made, in order, and succeeded. Otherwise the calls up to the first that did not succeed were made, and
its outcome is the result. -/
theorem C72_performs (w : World Addr) (h plan h' : List (Call Addr)) (r : Outcome Unit) (hp : Performs w h plan h' r) :
    (r = .ok () → h' = h ++ plan ∧ ∀ pre c post, plan = pre ++ c :: post → w (h ++ pre) c = .ok ()) ∧
    (r ≠ .ok () → ∃ pre c post, plan = pre ++ c :: post ∧ h' = h ++ pre ++ [c] ∧ w (h ++ pre) c = r) := by
  refine ⟨fun hr => ?_, hp.fail_call⟩
  obtain ⟨h1, h2⟩ := hp.ok_calls hr
  refine ⟨h1, fun pre c post hpl => ?_⟩
  have := h2 pre.length c (by simp [hpl])
  simpa [hpl] using this

theorem exchange_untrusting_server (A : Aead) (D : DH) (w : World Addr) (hw : RealExchanges A D w) (h : List (Call Addr)) (n : Nat) (keys : Keys)
    (h1 : keys.knownPeers = []) (h2 : keys.allowUnknown = false) : w h (.serverExchange n keys) ≠ .ok () := by
  intro hx
  obtain ⟨fresh, ops, s, st, hf, hr, hd⟩ := hw.server_ok h n keys hx
  have : keys = Keys.default keys.secret := by cases keys; simp_all [Keys.default]
  rw [this] at hr
  exact ((C42_default_options A D keys.secret fresh hf ops).1 s hr).2 st hd

theorem exchange_untrusting_client (A : Aead) (D : DH) (w : World Addr) (hw : RealExchanges A D w) (h : List (Call Addr)) (n : Nat) (keys : Keys)
    (h1 : keys.knownPeers = []) (h2 : keys.allowUnknown = false) : w h (.clientExchange n keys) ≠ .ok () := by
  intro hx
  obtain ⟨ops, s, st, hr, hd⟩ := hw.client_ok h n keys hx
  have : keys = Keys.default keys.secret := by cases keys; simp_all [Keys.default]
  rw [this] at hr
  exact (C42_default_options A D keys.secret (List.replicate 32 0) (by simp) ops).2 s hr st hd

/-- C72: if one of the layers has keys that trust nobody (no known peers, strangers not allowed), then nobody can be accepted and no connection can be made, whatever the other
layers, the transport and the peer. -/
theorem C72_untrusting (A : Aead) (D : DH) (w w' : World Addr) (hw : RealExchanges A D w) (hw' : RealExchanges A D w') (a : Addr) (base : Options)
    (hb : base = .unix ∨ ∃ ttl, base = .tcp ttl) (ks : List Keys) (k : Keys)
    (hk : k ∈ ks) (h1 : k.knownPeers = []) (h2 : k.allowUnknown = false) (h h' : List (Call Addr)) :
    (∀ s, (connect a (layered base ks) w h).2 ≠ .ok s) ∧
    ∀ l, (bind a (layered base ks) w h).2 = .ok l → ∀ s, (accept l w' h').2 ≠ .ok s := by
  obtain ⟨i, hi, rfl⟩ := List.getElem_of_mem hk
  constructor
  · intro s hs
    obtain ⟨plan, hp⟩ : ∃ plan : List (Call Addr), (base = .unix ∧ plan = [.connect a, .ready]) ∨ ∃ ttl, base = .tcp ttl ∧ plan = .connect a :: ttlCall ttl := by
      rcases hb with rfl | ⟨ttl, rfl⟩
      · exact ⟨_, Or.inl ⟨rfl, rfl⟩⟩
      · exact ⟨_, Or.inr ⟨ttl, rfl, rfl⟩⟩
    obtain ⟨r, g1, g2⟩ := C72_connect a base plan hp ks w h
    rw [hs] at g2
    obtain ⟨-, g3⟩ := g1.ok_calls g2.1
    exact exchange_untrusting_client A D w hw _ i ks[i] h1 h2 (g3 (plan.length + i) _ (by simp [hi]))
  · intro l hl s hs
    obtain ⟨plan, hp⟩ : ∃ plan : List (Call Addr), (base = .unix ∧ plan = [.bind a]) ∨ ∃ ttl, base = .tcp ttl ∧ plan = .bind a :: ttlCall ttl := by
      rcases hb with rfl | ⟨ttl, rfl⟩
      · exact ⟨_, Or.inl ⟨rfl, rfl⟩⟩
      · exact ⟨_, Or.inr ⟨ttl, rfl, rfl⟩⟩
    obtain ⟨r, g1, g2⟩ := (C72_bind_accept a base plan hp ks w h).2 l hl w' h'
    rw [hs] at g2
    obtain ⟨-, g3⟩ := g1.ok_calls g2.1
    exact exchange_untrusting_server A D w' hw' _ i ks[i] h1 h2 (g3 (i + 1) _ (by simp [hi]))

/-- `n` encrypted layers around a protocol. -/
def nest : Nat → Proto → Proto
  | 0, p => p
  | n + 1, p => .encrypted (nest n p)

/-- C72: the default options of a protocol with `n` encrypted layers: no TTL; each layer trusts nobody and has a secret of its own, from a draw of the random generator that no other
layer uses. -/
theorem C72_default_keys (random : Nat → Bytes) (n : Nat) :
    Options.default random (nest n .tcp) = layered (.tcp none) ((List.range n).map fun i => { secret := random i, knownPeers := [], allowUnknown := false }) ∧
    Options.default random (nest n .unix) = layered .unix ((List.range n).map fun i => { secret := random i, knownPeers := [], allowUnknown := false }) := by
  have hd : ∀ p, p = Proto.tcp ∨ p = .unix → ∀ n, Options.default.depth (nest n p) = n := by
    intro p hp n
    induction n with
    | zero => rcases hp with rfl | rfl <;> rfl
    | succ n ih => simp [nest, Options.default.depth, ih]
  constructor
  · induction n with
    | zero => rfl
    | succ n ih =>
      rw [List.range_succ, List.map_append, List.map_singleton, layered_concat, ← ih]
      simp [nest, Options.default, Keys.default, hd]
  · induction n with
    | zero => rfl
    | succ n ih =>
      rw [List.range_succ, List.map_append, List.map_singleton, layered_concat, ← ih]
      simp [nest, Options.default, Keys.default, hd]

theorem default_layered (random : Nat → Bytes) (p : Proto) :
    ∃ base ks, Options.default random p = layered base ks ∧ (base = .unix ∨ ∃ ttl, base = .tcp ttl) ∧
      ∀ k ∈ ks, k.knownPeers = [] ∧ k.allowUnknown = false := by
  induction p with
  | tcp => exact ⟨.tcp none, [], rfl, Or.inr ⟨none, rfl⟩, by simp⟩
  | unix => exact ⟨.unix, [], rfl, Or.inl rfl, by simp⟩
  | encrypted p ih =>
    obtain ⟨base, ks, h1, h2, h3⟩ := ih
    refine ⟨base, ks ++ [Keys.default (random (Options.default.depth p))], by rw [layered_concat, ← h1]; rfl, h2, fun k hk => ?_⟩
    rcases List.mem_append.1 hk with hk | hk
    · exact h3 k hk
    · simp only [List.mem_singleton] at hk; subst hk; exact ⟨rfl, rfl⟩

/-- C72: a server or client of an encrypted protocol, built without `server_options` / `client_options`, cannot accept or connect to anybody. -/
theorem C72_default_options (A : Aead) (D : DH) (w w' : World Addr) (hw : RealExchanges A D w) (hw' : RealExchanges A D w') (a : Addr)
    (random : Nat → Bytes) (p : Proto) (h h' : List (Call Addr)) :
    (∀ s, (connect a (Options.default random (.encrypted p)) w h).2 ≠ .ok s) ∧
    ∀ l, (bind a (Options.default random (.encrypted p)) w h).2 = .ok l → ∀ s, (accept l w' h').2 ≠ .ok s := by
  obtain ⟨base, ks, h1, h2, h3⟩ := default_layered random p
  have he : Options.default random (.encrypted p) = layered base (ks ++ [Keys.default (random (Options.default.depth p))]) := by rw [layered_concat, ← h1]; rfl
  rw [he]
  exact C72_untrusting A D w w' hw hw' a base h2 _ (Keys.default (random (Options.default.depth p))) (by simp) rfl rfl h h'

/-- What a call can lead to in a world with real exchanges. -/
theorem call_outcomes (A : Aead) (D : DH) (w : World Addr) (hw : RealExchanges A D w) (hs : SocketErrors w) (h : List (Call Addr)) (c : Call Addr) :
    w h c = .ok () ∨ w h c = .hang ∨ (∃ e, w h c = .err (.io e)) ∨
    ∃ n k key, (c = .serverExchange n k ∨ c = .clientExchange n k) ∧ w h c = .err (.unknownPeer key) ∧ ¬ Trusts D k key := by
  have hnt : ∀ (k : Keys) (key : Bytes), k.refuses D key = true → ¬ Trusts D k key := fun k key hr ht => by
    rw [trusts_iff.1 ht] at hr; cases hr
  have sock : (∀ n k, c ≠ .serverExchange n k) → (∀ n k, c ≠ .clientExchange n k) → _ := hs h c
  cases c with
  | serverExchange n k =>
    cases hx : w h (.serverExchange n k) with
    | ok _ => exact Or.inl rfl
    | hang => exact Or.inr (Or.inl rfl)
    | panic =>
      obtain ⟨fresh, ops, s, hf, hr, hp⟩ := hw.server_panic h n k hx
      have := serverRun_inv hf (serverInit_inv A D k fresh) hr
      rw [hp] at this
      exact this.elim
    | err e =>
      obtain ⟨fresh, ops, s, hf, hr, hp⟩ := hw.server_err h n k e hx
      have := serverRun_inv hf (serverInit_inv A D k fresh) hr
      rw [hp] at this
      rcases this with ⟨key, h1, h2, h3, -⟩ | ⟨er, h1, -⟩
      · subst h1; exact Or.inr (Or.inr (Or.inr ⟨n, k, key, Or.inl rfl, rfl, hnt k key h3⟩))
      · subst h1; exact Or.inr (Or.inr (Or.inl ⟨er, rfl⟩))
  | clientExchange n k =>
    cases hx : w h (.clientExchange n k) with
    | ok _ => exact Or.inl rfl
    | hang => exact Or.inr (Or.inl rfl)
    | panic =>
      obtain ⟨ops, s, hr, hp⟩ := hw.client_panic h n k hx
      have := clientRun_inv (clientInit_inv D k) hr
      rw [hp] at this
      exact this.elim
    | err e =>
      obtain ⟨ops, s, hr, hp⟩ := hw.client_err h n k e hx
      have := clientRun_inv (clientInit_inv D k) hr
      rw [hp] at this
      rcases this.2 with ⟨er, h1⟩ | ⟨key, h1, h2, h3⟩
      · subst h1; exact Or.inr (Or.inr (Or.inl ⟨er, rfl⟩))
      · subst h1; exact Or.inr (Or.inr (Or.inr ⟨n, k, key, Or.inr rfl, rfl, hnt k key h3⟩))
  | _ =>
    rcases sock (by simp) (by simp) with h1 | h1 | h1
    · exact Or.inl h1
    · exact Or.inr (Or.inl h1)
    · exact Or.inr (Or.inr (Or.inl h1))

/-- C72: binding, connecting and accepting never panic, and fail only with an IO error, or (connecting, accepting) with `UnknownPeer` and a key that the keys of some layer do
not trust. -/
theorem C72_errors (A : Aead) (D : DH) (w w' : World Addr) (hw : RealExchanges A D w) (hs : SocketErrors w) (hw' : RealExchanges A D w') (hs' : SocketErrors w')
    (a : Addr) (base : Options) (hb : base = .unix ∨ ∃ ttl, base = .tcp ttl) (ks : List Keys) (h h' : List (Call Addr)) :
    ((∃ l, (bind a (layered base ks) w h).2 = .ok l) ∨ (bind a (layered base ks) w h).2 = .hang ∨ ∃ e, (bind a (layered base ks) w h).2 = .err (.io e)) ∧
    ((∃ s, (connect a (layered base ks) w h).2 = .ok s) ∨ (connect a (layered base ks) w h).2 = .hang ∨ (∃ e, (connect a (layered base ks) w h).2 = .err (.io e)) ∨
      ∃ k ∈ ks, ∃ key, (connect a (layered base ks) w h).2 = .err (.unknownPeer key) ∧ ¬ Trusts D k key) ∧
    ∀ l, (bind a (layered base ks) w h).2 = .ok l →
      (∃ s, (accept l w' h').2 = .ok s) ∨ (accept l w' h').2 = .hang ∨ (∃ e, (accept l w' h').2 = .err (.io e)) ∨
      ∃ k ∈ ks, ∃ key, (accept l w' h').2 = .err (.unknownPeer key) ∧ ¬ Trusts D k key := by
  have key : ∀ {α : Type} {w : World Addr} {h : List (Call Addr)} {plan h1 : List (Call Addr)} {r : Outcome Unit} {P : α → Prop} {o : Outcome α},
      RealExchanges A D w → SocketErrors w → Performs w h plan h1 r → Ends P r o →
      (∃ a, o = .ok a) ∨ o = .hang ∨ (∃ e, o = .err (.io e)) ∨
      ∃ n k key, (.serverExchange n k ∈ plan ∨ .clientExchange n k ∈ plan) ∧ o = .err (.unknownPeer key) ∧ ¬ Trusts D k key := by
    intro α w h plan h1 r P o hw hs hp he
    by_cases hr : r = .ok ()
    · cases o with
      | ok a => exact Or.inl ⟨a, rfl⟩
      | err e => rw [hr] at he; cases he
      | panic => rw [hr] at he; cases he
      | hang => rw [hr] at he; cases he
    · obtain ⟨pre, c, post, g1, g2, g3⟩ := hp.fail_call hr
      rcases call_outcomes A D w hw hs (h ++ pre) c with g | g | ⟨e, g⟩ | ⟨n, k, key, hc, g, ht⟩
      · exact absurd (g3.symm.trans g) hr
      · rw [← g3, g] at he
        cases o with
        | hang => exact Or.inr (Or.inl rfl)
        | ok _ => cases he.1
        | _ => cases he
      · rw [← g3, g] at he
        cases o with
        | err e' => cases he; exact Or.inr (Or.inr (Or.inl ⟨e, rfl⟩))
        | ok _ => cases he.1
        | _ => cases he
      · rw [← g3, g] at he
        cases o with
        | err e' =>
          cases he
          refine Or.inr (Or.inr (Or.inr ⟨n, k, key, ?_, rfl, ht⟩))
          rcases hc with rfl | rfl
          · exact Or.inl (by simp [g1])
          · exact Or.inr (by simp [g1])
        | ok _ => cases he.1
        | _ => cases he
  obtain ⟨plan, hp, hnb⟩ : ∃ plan : List (Call Addr), ((base = .unix ∧ plan = [.bind a]) ∨ ∃ ttl, base = .tcp ttl ∧ plan = .bind a :: ttlCall ttl) ∧
      ∀ n k, ¬ (.serverExchange n k ∈ plan ∨ .clientExchange n k ∈ plan) := by
    rcases hb with rfl | ⟨ttl, rfl⟩
    · exact ⟨_, Or.inl ⟨rfl, rfl⟩, by simp⟩
    · exact ⟨_, Or.inr ⟨ttl, rfl, rfl⟩, by cases ttl <;> simp [ttlCall]⟩
  obtain ⟨plan', hp', hnb'⟩ : ∃ plan : List (Call Addr), ((base = .unix ∧ plan = [.connect a, .ready]) ∨ ∃ ttl, base = .tcp ttl ∧ plan = .connect a :: ttlCall ttl) ∧
      ∀ n k, ¬ (.serverExchange n k ∈ plan ∨ .clientExchange n k ∈ plan) := by
    rcases hb with rfl | ⟨ttl, rfl⟩
    · exact ⟨_, Or.inl ⟨rfl, rfl⟩, by simp⟩
    · exact ⟨_, Or.inr ⟨ttl, rfl, rfl⟩, by cases ttl <;> simp [ttlCall]⟩
  obtain ⟨⟨r, g1, g2⟩, g3⟩ := C72_bind_accept a base plan hp ks w h
  refine ⟨?_, ?_, fun l hl => ?_⟩
  · rcases key hw hs g1 g2 with h1 | h1 | h1 | ⟨n, k, -, h1, -⟩
    · exact Or.inl h1
    · exact Or.inr (Or.inl h1)
    · exact Or.inr (Or.inr h1)
    · exact absurd h1 (hnb n k)
  · obtain ⟨r, g4, g5⟩ := C72_connect a base plan' hp' ks w h
    rcases key hw hs g4 g5 with h1 | h1 | h1 | ⟨n, k, ky, h1, h2, h3⟩
    · exact Or.inl h1
    · exact Or.inr (Or.inl h1)
    · exact Or.inr (Or.inr (Or.inl h1))
    · refine Or.inr (Or.inr (Or.inr ⟨k, ?_, ky, h2, h3⟩))
      have := hnb' n k
      simp only [List.mem_append, List.mem_mapIdx] at h1
      rcases h1 with (h1 | ⟨i, hi, h1⟩) | (h1 | ⟨i, hi, h1⟩)
      · exact absurd (Or.inl h1) this
      · cases h1
      · exact absurd (Or.inr h1) this
      · cases h1; exact List.getElem_mem hi
  · obtain ⟨r, g4, g5⟩ := g3 l hl w' h'
    rcases key hw' hs' g4 g5 with h1 | h1 | h1 | ⟨n, k, ky, h1, h2, h3⟩
    · exact Or.inl h1
    · exact Or.inr (Or.inl h1)
    · exact Or.inr (Or.inr (Or.inl h1))
    · refine Or.inr (Or.inr (Or.inr ⟨k, ?_, ky, h2, h3⟩))
      simp only [List.mem_cons, List.mem_mapIdx] at h1
      rcases h1 with (h1 | ⟨i, hi, h1⟩) | (h1 | ⟨i, hi, h1⟩)
      · cases h1
      · cases h1; exact List.getElem_mem hi
      · cases h1
      · cases h1

/-- C72, the builder: without an address nothing is called. With one, `build_server` binds the last address given with the last `server_options` given, `build_client` connects to
it with the last `client_options`, and their results are returned; `Options.default` stands for options that were not given. -/
theorem C72_builder {CB : Type} (e : CB) (f : Format) (d : Options) (ops : List (BuilderOp CB Addr Options)) (w : World Addr) (h : List (Call Addr)) :
    (addressCalls ops = [] →
      Protocol.buildServer (built e f d ops) w h = (h, .err (.build "Missing Address")) ∧
      Protocol.buildClient (built e f d ops) w h = (h, .err (.build "Missing Address"))) ∧
    ∀ a, (addressCalls ops).getLast? = some a →
      Protocol.buildServer (built e f d ops) w h = bind a ((serverOptionCalls ops).getLast?.getD d) w h ∧
      Protocol.buildClient (built e f d ops) w h = connect a ((clientOptionCalls ops).getLast?.getD d) w h := by
  constructor
  · intro ha
    constructor
    · unfold Protocol.buildServer
      dsimp only
      rw [(C31_missing_address e f d ops ha _ (fun _ => .panic) 0).1]
    · unfold Protocol.buildClient
      dsimp only
      rw [(C31_missing_address e f d ops ha _ (fun _ => .panic) 0).2.1]
  · intro a ha
    constructor
    · unfold Protocol.buildServer
      dsimp only
      rw [(C31_single_connection e f d ops a ha _).1]
    · unfold Protocol.buildClient
      dsimp only
      rw [(C31_single_connection e f d ops a ha _).2]

theorem attempts_tail (m : Action Addr Protocol.Stream) (w : World Addr) (h : List (Call Addr)) (i n : Nat) :
    attempts m w (attempts m w h i) n = attempts m w h (i + n) := by
  induction n with
  | zero => rfl
  | succ n ih => rw [attempts, ih]; rfl

theorem connectLoop_does {a : Addr} {o : Options} {m : Action Addr Protocol.Stream} {plan : List (Call Addr)} {P : Protocol.Stream → Prop} (hm : Does m plan P)
    (w : World Addr) (h : List (Call Addr)) (n i : Nat) (cs : List Protocol.Stream) (hcs : ∀ c ∈ cs, P c) :
    ∃ r, Performs w (attempts m w h i) (List.replicate n plan).flatten
      (attempts m w h (i + (connectLoop (.connect a o) (fun i => (m w (attempts m w h i)).2) n i cs).1.length)) r ∧
      Ends (fun l : List Protocol.Stream => l.length = cs.length + n ∧ ∀ c ∈ l, P c) r
        (connectLoop (.connect a o) (fun i => (m w (attempts m w h i)).2) n i cs).2 := by
  induction n generalizing i cs with
  | zero => exact ⟨.ok (), .done _, rfl, by simp, hcs⟩
  | succ n ih =>
    obtain ⟨r, g1, g2⟩ := hm w (attempts m w h i)
    rw [connectLoop, List.replicate_succ, List.flatten_cons]
    have hat : (m w (attempts m w h i)).1 = attempts m w h (i + 1) := rfl
    rw [hat] at g1
    cases hx : (m w (attempts m w h i)).2 with
    | ok c =>
      rw [hx] at g2
      obtain ⟨rfl, hP⟩ := g2
      obtain ⟨r', g3, g4⟩ := ih (i + 1) (cs ++ [c]) (by
        intro c' hc
        rcases List.mem_append.1 hc with hc | hc
        · exact hcs c' hc
        · simp only [List.mem_singleton] at hc; subst hc; exact hP)
      refine ⟨r', ?_, ?_⟩
      · have := g1.append_ok g3
        simp only [List.length_cons]
        rw [show i + ((connectLoop (.connect a o) (fun i => (m w (attempts m w h i)).2) n (i + 1) (cs ++ [c])).1.length + 1)
          = i + 1 + (connectLoop (.connect a o) (fun i => (m w (attempts m w h i)).2) n (i + 1) (cs ++ [c])).1.length by omega]
        exact this
      · have he : cs.length + (n + 1) = (cs ++ [c]).length + n := by simp; omega
        rw [he]
        exact g4
    | err e => rw [hx] at g2; cases g2; exact ⟨_, g1.append_fail (by simp), rfl⟩
    | panic => rw [hx] at g2; cases g2; exact ⟨_, g1.append_fail (by simp), rfl⟩
    | hang => rw [hx] at g2; cases g2; exact ⟨_, g1.append_fail (by simp), rfl⟩

/-- C72, pools: `n` complete connections to the last address given, with the last `client_options` given, one after the other; the first call that fails ends all, with its error. -/
theorem C72_pool {CB : Type} (e : CB) (f : Format) (d : Options) (ops : List (BuilderOp CB Addr Options)) (a : Addr) (ha : (addressCalls ops).getLast? = some a)
    (base : Options) (ks : List Keys) (ho : (clientOptionCalls ops).getLast?.getD d = layered base ks) (plan : List (Call Addr))
    (hb : (base = .unix ∧ plan = [.connect a, .ready]) ∨ ∃ ttl, base = .tcp ttl ∧ plan = .connect a :: ttlCall ttl)
    (n : Nat) (hn : 0 < n) (w : World Addr) (h : List (Call Addr)) :
    ∃ r, Performs w h (List.replicate n (plan ++ ks.mapIdx .clientExchange)).flatten (Protocol.buildPool (built e f d ops) n w h).1 r ∧
      Ends (fun ss : List Protocol.Stream => ss.length = n ∧ ∀ s ∈ ss, s.layers = ks.length ∧ s = streamOf (layered base ks)) r (Protocol.buildPool (built e f d ops) n w h).2 := by
  obtain ⟨-, -, -, h4, h5⟩ := C30_settings e f d ops
  rw [ha] at h5
  have hm : Does (connect a (layered base ks)) (plan ++ ks.mapIdx .clientExchange) (fun s => s.layers = ks.length ∧ s = streamOf (layered base ks)) := C72_connect a base plan hb ks
  obtain ⟨r, g1, g2⟩ := connectLoop_does (a := a) (o := layered base ks) hm w h n 0 [] (by simp)
  refine ⟨r, ?_, ?_⟩
  · unfold Protocol.buildPool
    rw [h5]
    unfold IPCBuilder.buildPooledClient IPCBuilder.validate
    rw [if_neg (by omega), h5, h4, ho]
    have hn' : n ≠ 0 := by omega
    simpa [attempts, hn'] using g1
  · unfold Protocol.buildPool
    rw [h5]
    unfold IPCBuilder.buildPooledClient IPCBuilder.validate
    rw [if_neg (by omega), h5, h4, ho]
    have hn' : n ≠ 0 := by omega
    simpa [attempts, hn'] using g2

/-! ### Concrete cases -/

/-- Everything succeeds. -/
def easyWorld : World Nat := fun _ _ => .ok ()

/-- `set_ttl` fails. -/
def noTtlWorld : World Nat := fun _ c => match c with | .setTtl _ => .err (.io .other) | _ => .ok ()

def demoKeys : Keys := { secret := [1], allowUnknown := true }
def demoKeys' : Keys := { secret := [2], knownPeers := [[3]] }

/-- Two encrypted layers over TCP with a TTL: connecting. -/
example : connect 80 (layered (.tcp (some 64)) [demoKeys, demoKeys']) easyWorld []
    = ([.connect 80, .setTtl 64, .clientExchange 0 demoKeys, .clientExchange 1 demoKeys'], .ok (.encrypted (.encrypted .tcp))) := rfl

/-- `set_ttl` fails: no key exchange is begun. -/
example : connect 80 (layered (.tcp (some 64)) [demoKeys, demoKeys']) noTtlWorld [] = ([.connect 80, .setTtl 64], .err (.io .other)) := rfl

/-- A bound listener, and what it does to accept. -/
example : bind 80 (layered .unix [demoKeys, demoKeys']) easyWorld [] = ([.bind 80], .ok (.encrypted (.encrypted .unix demoKeys) demoKeys')) ∧
    accept (.encrypted (.encrypted .unix demoKeys) demoKeys') easyWorld []
      = ([.accept, .serverExchange 0 demoKeys, .serverExchange 1 demoKeys'], .ok (.encrypted (.encrypted .unix))) := ⟨rfl, rfl⟩

/-- A pool of two over unix sockets. -/
example : (Protocol.buildPool (built () .json .unix [.address 7, .clientOptions (.encrypted .unix demoKeys)]) 2 easyWorld []).1
    = [.connect 7, .ready, .clientExchange 0 demoKeys, .connect 7, .ready, .clientExchange 0 demoKeys] := rfl

/-- A world with real exchanges, in which some succeed: with keys that allow strangers they complete (`C54_violated_server`, and the client of C54's example), all others hang. -/
def realWorld : World Nat := fun _ c =>
  match c with
  | .serverExchange _ keys => if keys.allowUnknown then .ok () else .hang
  | .clientExchange _ _ => .hang
  | _ => .ok ()

theorem realWorld_real : RealExchanges toyAead toyDH realWorld where
  server_ok h n keys hx := by
    have ha : keys.allowUnknown = true := by
      cases hk : keys.allowUnknown
      · simp [realWorld, hk] at hx
      · rfl
    obtain ⟨s, st, h1, h2, -⟩ := C54_violated_server toyAead toyDH keys (List.replicate 32 0) (by simp) (List.replicate 32 5) (by simp) (Or.inl ha) 84 (Nat.le_refl _)
    exact ⟨_, _, s, st, by simp, h1, h2⟩
  server_err h n keys e hx := by
    simp only [realWorld] at hx
    split at hx <;> cases hx
  client_ok h n keys hx := by cases hx
  client_err h n keys e hx := by cases hx
  server_panic h n keys hx := by
    simp only [realWorld] at hx
    split at hx <;> cases hx
  client_panic h n keys hx := by cases hx

theorem realWorld_sockets : SocketErrors realWorld := by
  intro h c h1 h2
  cases c with
  | serverExchange n k => exact absurd rfl (h1 n k)
  | clientExchange n k => exact absurd rfl (h2 n k)
  | _ => exact Or.inl rfl

example : accept (.encrypted .unix demoKeys) realWorld [] = ([.accept, .serverExchange 0 demoKeys], .ok (.encrypted .unix)) := rfl

end Bromine.Props
