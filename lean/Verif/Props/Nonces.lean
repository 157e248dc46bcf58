import Verif.Lemmas.Nonces
import Verif.Props.LayerPeer
import Verif.Props.SetupFail
/-
C93: the keys and nonces of a side in the whole life of a connection with encrypted layers, whoever the peer is.
-/
namespace Bromine.Layers
open Bromine CryptIO Spec Props
open Bromine.Handshake (DH Keys)

/-! ### The set-up of all layers -/

/-- Of a server that sets up its layers. -/
def SrvSt (A : Aead) (D : DH) : (xs : List Exchange) → (server A D xs).State → Prop
  | [] => fun _ => True
  | x :: xs => Sum.elim (SrvSt A D xs) (SrvI D x (Each (SrvQ D) xs))

/-- Of a client. -/
def CliSt (A : Aead) (D : DH) : (xs : List Exchange) → (client A D xs).State → Prop
  | [] => fun _ => True
  | _ :: xs => Sum.elim (CliSt A D xs) (CliI (Each (fun _ => CliQ) xs))

theorem holding_servers (A : Aead) (D : DH) : ∀ xs : List Exchange, (∀ x ∈ xs, x.fresh.length = 32) → Holding (server A D xs) (SrvSt A D xs) (Each (SrvQ D) xs)
  | [], _ => ⟨fun _ => trivial, fun _ _ => trivial, fun _ _ _ => trivial⟩
  | x :: xs, h => holding_server (keeps_each (fun a e d => srvQ_encrypt D a e d) xs) (short_layers A xs.length) A D x (h x (by simp)) (holding_servers A D xs fun y hy => h y (by simp [hy]))

theorem holding_clients (A : Aead) (D : DH) : ∀ xs : List Exchange, Holding (client A D xs) (CliSt A D xs) (Each (fun _ => CliQ) xs)
  | [] => ⟨fun _ => trivial, fun _ _ => trivial, fun _ _ _ => trivial⟩
  | x :: xs => holding_client (keeps_each (fun a e d => cliQ_encrypt a e d) xs) (short_layers A xs.length) A D x.client (holding_clients A D xs)

theorem holding_serversF (A : Aead) (D : DH) (e : IoErr) (after : Script) : ∀ xs : List Exchange, (∀ x ∈ xs, x.fresh.length = 32) → ∃ st, Holding (serverF A D e after xs) st (Each (SrvQ D) xs)
  | [], _ => ⟨fun _ => True, fun _ => trivial, fun _ _ => trivial, fun _ _ _ => trivial⟩
  | x :: xs, h => by
    obtain ⟨st, ih⟩ := holding_serversF A D e after xs fun y hy => h y (by simp [hy])
    exact ⟨_, holding_server (keeps_each (fun a e d => srvQ_encrypt D a e d) xs) (short_layersF A xs.length) A D x (h x (by simp)) ih⟩

theorem holding_clientsF (A : Aead) (D : DH) (e : IoErr) (after : Script) : ∀ xs : List Exchange, ∃ st, Holding (clientF A D e after xs) st (Each (fun _ => CliQ) xs)
  | [] => ⟨fun _ => True, fun _ => trivial, fun _ _ => trivial, fun _ _ _ => trivial⟩
  | x :: xs => by
    obtain ⟨st, ih⟩ := holding_clientsF A D e after xs
    exact ⟨_, holding_client (keeps_each (fun a e d => cliQ_encrypt a e d) xs) (short_layersF A xs.length) A D x.client ih⟩

theorem srvQ_log {D : DH} (x : Exchange) (e : Encryptor) (h : SrvQ D x e) : ServerLog D x e.log := by
  obtain ⟨f, h1, cur, h2, _, _, h3⟩ := h
  exact ⟨f, cur, h2, h1, h3⟩

theorem cliQ_log (e : Encryptor) (h : CliQ e) : e.key.length = 32 ∧ Numbered e.key e.log := by
  obtain ⟨key, h1, cur, h2, h3, _, h4⟩ := h
  rw [h2, h3]
  exact ⟨h1, h4⟩

/-- The keys that the layers write with, the outermost first. -/
def keysW : (n : Nat) → WState n → List Bytes
  | 0, _ => []
  | n + 1, (ws, t) => ws.enc.key :: keysW n t

theorem keeps_keys (A : Aead) : ∀ (n : Nat) (ks : List Bytes), KeepsW (layersW A n) (fun w => keysW n w = ks)
  | 0, ks => ⟨fun _ _ h => h, fun _ h => h, fun _ _ h => h⟩
  | n + 1, [] => by
    refine ⟨?_, ?_, ?_⟩
    · rintro ⟨ws, t⟩ buf h; cases h
    · rintro ⟨ws, t⟩ h; cases h
    · rintro ⟨ws, t⟩ b h; cases h
  | n + 1, k :: ks => by
    have hk := (keeps_keys A n ks).layer (A := A) (Q := fun e => e.key = k) (by
      intro x d hx
      unfold Encryptor.encrypt
      dsimp only
      split <;> exact hx)
    have hto : ∀ w : WState (n + 1), keysW (n + 1) w = k :: ks → w.1.enc.key = k ∧ keysW n w.2 = ks := by
      rintro ⟨ws, t⟩ h
      injection h with h1 h2
      exact ⟨h1, h2⟩
    have hfro : ∀ w : WState (n + 1), w.1.enc.key = k ∧ keysW n w.2 = ks → keysW (n + 1) w = k :: ks := by
      rintro ⟨ws, t⟩ ⟨h1, h2⟩
      exact congr (congrArg List.cons h1) h2
    exact ⟨fun w buf h => hfro _ (hk.write w buf (hto w h)), fun w h => hfro _ (hk.flush w (hto w h)), fun w b h => hfro _ (hk.set w b (hto w h))⟩

theorem keys_shutdown (A : Aead) : ∀ (n : Nat) (w : WState n), keysW n (pollShutdown A n w).2.2 = keysW n w
  | 0, _ => rfl
  | n + 1, (ws, t) => by
    cases hs : ws.futShutdown with
    | true =>
      rw [pollShutdown_fut A _ ws t hs]
      have ih := keys_shutdown A n t
      generalize pollShutdown A n t = y at ih
      obtain ⟨p, b, t'⟩ := y
      rcases p with _ | _ | _ <;> exact congrArg (ws.enc.key :: ·) ih
    | false =>
      rw [pollShutdown_flush A _ ws t hs]
      have hf : keysW (n + 1) (Layers.pollFlush (layersW A n) A (ws, t)).2 = keysW (n + 1) (ws, t) := (keeps_keys A (n + 1) _).flush (ws, t) rfl
      generalize Layers.pollFlush (layersW A n) A (ws, t) = y at hf
      obtain ⟨p, ws', t'⟩ := y
      rcases p with (_ | _) | _ | _
      · exact hf
      · dsimp only
        split <;> exact hf
      · exact hf
      · exact hf

theorem keys_ops (A : Aead) (n : Nat) (ops : List WOp) : ∀ w : WState n, keysW n (afterOps A n w ops) = keysW n w := by
  induction ops with
  | nil => exact fun w => rfl
  | cons op ops ih =>
    intro w
    refine (ih (applyW A n w op)).trans ?_
    have hk := keeps_keys A n (keysW n w)
    cases op with
    | write buf as => exact hk.write _ _ (hk.set _ _ rfl)
    | flush as => exact hk.flush _ (hk.set _ _ rfl)
    | shutdown as => exact (keys_shutdown A n _).trans (hk.set _ _ rfl)

theorem each_keys {α : Type} : ∀ (xs : List α) (w : WState xs.length), Each (fun _ => CliQ) xs w → ∀ (k : Nat) (key : Bytes), (keysW xs.length w)[k]? = some key →
    key.length = 32 ∧ ∃ log, (logs xs.length w)[k]? = some log ∧ Numbered key log
  | [], _, _, k, key, hk => by simp [keysW] at hk
  | x :: xs, (ws, t), h, 0, key, hk => by
    have hk' : ws.enc.key = key := by simpa [keysW] using hk
    subst hk'
    exact ⟨(cliQ_log _ h.1).1, _, rfl, (cliQ_log _ h.1).2⟩
  | x :: xs, (ws, t), h, k + 1, key, hk => each_keys xs t h.2 k key (by simpa [keysW] using hk)

theorem keys_halves : ∀ (n : Nat) (ls : List Layer) (w : WState n), WriteHalves n ls w → keysW n w = ls.map Layer.key
  | 0, [], _, _ => rfl
  | 0, _ :: _, _, h => h.elim
  | _ + 1, [], _, h => h.elim
  | n + 1, l :: ls, (ws, t), h => by
    obtain ⟨⟨lg, h1⟩, h2⟩ := h
    subst h1
    exact congrArg (l.key :: ·) (keys_halves n ls t h2)

theorem length_keysW : ∀ (n : Nat) (w : WState n), (keysW n w).length = n
  | 0, _ => rfl
  | n + 1, (_, t) => congrArg (· + 1) (length_keysW n t)

theorem map_clientLayers : ∀ xs : List Exchange, (clientLayers xs).map Layer.key = xs.map Exchange.fresh
  | [] => rfl
  | x :: xs => by
    have ih := map_clientLayers xs
    simp only [clientLayers, List.map_cons, afterPackages, List.map_map] at ih ⊢
    exact congrArg _ ih

theorem hears_length {A : Aead} {D : DH} {wire : Bytes} : ∀ {xs : List Exchange} {ss : List Bytes} {p : Bytes}, ClientHears A D wire xs ss p → ss.length = xs.length
  | [], [], _, _ => rfl
  | [], _ :: _, _, h => h.elim
  | _ :: _, [], _, h => h.elim
  | _ :: _, _ :: _, _, h => by
    obtain ⟨_, _, _, _, _, _, _, _, _, h1, _⟩ := h
    exact congrArg (· + 1) (hears_length h1)

theorem fresh_withSessions : ∀ (xs : List Exchange) (ss : List Bytes), ss.length = xs.length → (withSessions xs ss).map Exchange.fresh = ss
  | [], [], _ => rfl
  | [], _ :: _, h => by cases h
  | _ :: _, [], h => by cases h
  | x :: xs, s :: ss, h => congrArg (s :: ·) (fresh_withSessions xs ss (Nat.succ.inj h))

/-! ### Futures that are pending -/

theorem serverLogs_st (A : Aead) (D : DH) : ∀ (xs : List Exchange) (s : (server A D xs).State), SrvSt A D xs s → ∀ (k : Nat) (x : Exchange), xs[k]? = some x →
    ∃ log, (serverLogs A D xs s)[k]? = some log ∧ (log = [] ∨ ServerLog D x log)
  | [], _, _, k, x, hk => by simp at hk
  | x :: xs, .inl s, h, 0, y, hk => ⟨[], rfl, .inl rfl⟩
  | x :: xs, .inl s, h, k + 1, y, hk => serverLogs_st A D xs s h k y (by simpa using hk)
  | x :: xs, .inr ph, h, k, y, hk => by
    have inner : ∀ w : WState xs.length, Each (SrvQ D) xs w → ∀ k : Nat, xs[k]? = some y → ∃ log, (logs xs.length w)[k]? = some log ∧ (log = [] ∨ ServerLog D y log) := by
      intro w hw k hk
      obtain ⟨lg, h1, h2⟩ := each_logs (fun a e => srvQ_log a e) xs w hw k y hk
      exact ⟨lg, h1, .inr h2⟩
    have early : ∀ w : WState xs.length, Each (SrvQ D) xs w → ∃ log, ([] :: logs xs.length w)[k]? = some log ∧ (log = [] ∨ ServerLog D y log) := by
      intro w hw
      cases k with
      | zero => exact ⟨[], rfl, .inl rfl⟩
      | succ k => exact inner w hw k (by simpa using hk)
    cases ph with
    | recvPub acc w r => exact early w h.2
    | sendPub other rem w r => exact early w h.2
    | flushPub other w r => exact early w h.2
    | writeSecret rem w r => exact h.elim
    | flushSecret w r =>
      obtain ⟨h1, peer, hp, h2⟩ := h
      obtain ⟨ws, t⟩ := w
      cases k with
      | succ k => exact inner t h1 k (by simpa using hk)
      | zero =>
        have hk' : x = y := by simpa using hk
        subst hk'
        refine ⟨ws.enc.log, rfl, ?_⟩
        rcases h2 with h2 | ⟨_, h2⟩
        · dsimp only at h2
          exact .inl (by rw [h2])
        · dsimp only at h2
          exact .inr ⟨{ key := D.dh x.server.secret peer, nonce := nonceFromNumber 0, plain := x.fresh }, [], by rw [h2]; rfl, ⟨peer, hp.1, hp.2, rfl, nonce_spec 0, rfl⟩, by intro i e h; simp at h⟩

theorem clientLogs_st (A : Aead) (D : DH) : ∀ (xs : List Exchange) (s : (client A D xs).State), CliSt A D xs s → ∀ (k : Nat), k < xs.length →
    ∃ log, (clientLogs A D xs s)[k]? = some log ∧ (log = [] ∨ ∃ key, key.length = 32 ∧ Numbered key log)
  | [], _, _, k, hk => by simp at hk
  | x :: xs, .inl s, h, 0, hk => ⟨[], rfl, .inl rfl⟩
  | x :: xs, .inl s, h, k + 1, hk => clientLogs_st A D xs s h k (by simpa using hk)
  | x :: xs, .inr ph, h, k, hk => by
    have inner : ∀ w : WState xs.length, Each (fun _ => CliQ) xs w → ∀ k, k < xs.length → ∃ log, (logs xs.length w)[k]? = some log ∧ (log = [] ∨ ∃ key, key.length = 32 ∧ Numbered key log) := by
      intro w hw k hk
      obtain ⟨h1, lg, h2, h3⟩ := each_keys xs w hw k _ (List.getElem?_eq_getElem (by rw [length_keysW]; exact hk))
      exact ⟨lg, h2, .inr ⟨_, h1, h3⟩⟩
    have early : ∀ w : WState xs.length, Each (fun _ => CliQ) xs w → ∃ log, ([] :: logs xs.length w)[k]? = some log ∧ (log = [] ∨ ∃ key, key.length = 32 ∧ Numbered key log) := by
      intro w hw
      cases k with
      | zero => exact ⟨[], rfl, .inl rfl⟩
      | succ k => exact inner w hw k (by simpa using hk)
    cases ph with
    | recvPub acc w r => exact early w h.2
    | sendPub rem w r => exact early w h
    | flushPub w r => exact early w h
    | recvSecret got w r =>
      obtain ⟨h1, h2, h3⟩ := h
      obtain ⟨ws, t⟩ := w
      cases k with
      | succ k => exact inner t h3 k (by simpa using hk)
      | zero => exact ⟨ws.enc.log, rfl, .inl h2⟩

theorem nonce_eq_iff {i j : Nat} {n m : Bytes} (h : Nonce i n) (g : Nonce j m) : n = m ↔ i % 2 ^ 64 = j % 2 ^ 64 := by
  obtain ⟨nb, a1, a2⟩ := h
  obtain ⟨nb', b1, b2⟩ := g
  rw [bigEndian_iff] at a1 b1
  constructor
  · intro heq
    have : nb = nb' := (List.append_inj (a2.symm.trans (heq.trans b2)) (a1.1.trans b1.1.symm)).1
    subst this
    rw [a1.2, b1.2]
  · intro heq
    have : nb = nb' := beVal_inj (a1.1.trans b1.1.symm) (a1.2.symm.trans (heq.trans b1.2))
    rw [a2, b2, this]

theorem numbered_distinct {key : Bytes} {log : List Encryption} (h : Numbered key log) (hn : log.length ≤ 2 ^ 64) : (log.map fun e => (e.key, e.nonce)).Nodup := by
  rw [List.Nodup, List.pairwise_iff_getElem]
  intro i j hi hj hij heq
  rw [List.length_map] at hi hj
  simp only [List.getElem_map, Prod.mk.injEq] at heq
  have := (nonce_eq_iff (h i _ (List.getElem?_eq_getElem hi)).2 (h j _ (List.getElem?_eq_getElem hj)).2).1 heq.2
  omega

end Bromine.Layers

namespace Bromine.Props
open Bromine CryptIO Layers Spec
open Bromine.Handshake (DH Keys toyDH)

section
variable (A : Aead) (D : DH) (xs : List Exchange) (sc : Script) (f : Failing) (ps : List (List IoAns))

/-- **C93, the server.** Whatever arrives from whatever peer, however the set-up of any number of layers is polled, and whatever polls (writes, flushes, shutdowns, in any order, of emits that go on, are dropped, fail or panic) the connection gets
then: in each layer, the first thing that the server has encrypted is the key of the session, once, with the secret agreed with a peer that it trusts in that layer, and the nonce for 0; and all else with the key of the session,
number `j` with the nonce for `j`. -/
theorem C93_server (hf : ∀ x ∈ xs, x.fresh.length = 32) {w : WState xs.length} {r : RState xs.length} (hd : serverRuns A D xs sc ps = .done w r) (ops : List WOp) (k : Nat) (x : Exchange) (hx : xs[k]? = some x) :
    ∃ log, (logs xs.length (afterOps A xs.length w ops))[k]? = some log ∧ ServerLog D x log := by
  have h := (holding_servers A D xs hf).runs sc ps
  rw [show (server A D xs).runs sc ps = _ from hd] at h
  exact each_logs (fun a e => srvQ_log a e) xs _ (each_ops (fun a e d => srvQ_encrypt D a e d) xs ops w h) k x hx

/-- C93, the server, while it sets up its layers: the same; a layer may have encrypted nothing yet. -/
theorem C93_server_setup (hf : ∀ x ∈ xs, x.fresh.length = 32) {b : Bool} {s : (server A D xs).State} (hd : serverRuns A D xs sc ps = .pending b s) (k : Nat) (x : Exchange) (hx : xs[k]? = some x) :
    ∃ log, (serverLogs A D xs s)[k]? = some log ∧ (log = [] ∨ ServerLog D x log) := by
  have h := (holding_servers A D xs hf).runs sc ps
  rw [show (server A D xs).runs sc ps = _ from hd] at h
  exact serverLogs_st A D xs s h k x hx

/-- C93, the server, over a transport that fails. -/
theorem C93_server_failing (hf : ∀ x ∈ xs, x.fresh.length = 32) {w : WState xs.length} {r : FRState xs.length} (hd : serverRunsF A D xs f ps = .done w r) (ops : List WOp) (k : Nat) (x : Exchange) (hx : xs[k]? = some x) :
    ∃ log, (logs xs.length (afterOps A xs.length w ops))[k]? = some log ∧ ServerLog D x log := by
  obtain ⟨st, hst⟩ := holding_serversF A D f.err f.after xs hf
  have h := hst.runs { chunks := f.chunks, closed := true } ps
  rw [show (serverF A D f.err f.after xs).runs { chunks := f.chunks, closed := true } ps = _ from hd] at h
  exact each_logs (fun a e => srvQ_log a e) xs _ (each_ops (fun a e d => srvQ_encrypt D a e d) xs ops w h) k x hx

/-- **C93, the client.** Whatever arrives from whatever peer, and whatever is done with the connection: in each layer the client has encrypted everything with one key, number `j` with the nonce for `j`; that key is the one that it has heard, with the
secret agreed with a peer that it trusts. -/
theorem C93_client (hl : 68 + 20 * xs.length < 2 ^ 32) {w : WState xs.length} {r : RState xs.length} (hd : clientRuns A D xs sc ps = .done w r) :
    ∃ sessions heard, ClientHears A D (scriptBytes sc) xs sessions heard ∧ ∀ (ops : List WOp) (k : Nat) (key : Bytes), sessions[k]? = some key →
      ∃ log, (logs xs.length (afterOps A xs.length w ops))[k]? = some log ∧ Numbered key log := by
  obtain ⟨ss, heard, h1, _, h3, _⟩ := C81_client_done A D xs sc ps hl hd
  refine ⟨ss, heard, h1, fun ops k key hk => ?_⟩
  have h := (holding_clients A D xs).runs sc ps
  rw [show (client A D xs).runs sc ps = _ from hd] at h
  have he : keysW xs.length w = ss := by
    rw [keys_halves _ _ _ h3, map_clientLayers, fresh_withSessions xs ss (hears_length h1)]
  exact (each_keys xs _ (each_ops (fun a e d => cliQ_encrypt a e d) xs ops w h) k key (by rw [keys_ops, he]; exact hk)).2

/-- C93, the client, while it sets up its layers: the same; a layer may have encrypted nothing yet. -/
theorem C93_client_setup {b : Bool} {s : (client A D xs).State} (hd : clientRuns A D xs sc ps = .pending b s) (k : Nat) (hk : k < xs.length) :
    ∃ log, (clientLogs A D xs s)[k]? = some log ∧ (log = [] ∨ ∃ key, key.length = 32 ∧ Numbered key log) := by
  have h := (holding_clients A D xs).runs sc ps
  rw [show (client A D xs).runs sc ps = _ from hd] at h
  exact clientLogs_st A D xs s h k hk

/-- C93, the client, over a transport that fails. The keys are the same whatever is done with the connection. -/
theorem C93_client_failing {w : WState xs.length} {r : FRState xs.length} (hd : clientRunsF A D xs f ps = .done w r) :
    ∃ sessions : List Bytes, sessions.length = xs.length ∧ ∀ (ops : List WOp) (k : Nat) (key : Bytes), sessions[k]? = some key →
      key.length = 32 ∧ ∃ log, (logs xs.length (afterOps A xs.length w ops))[k]? = some log ∧ Numbered key log := by
  obtain ⟨st, hst⟩ := holding_clientsF A D f.err f.after xs
  have h := hst.runs { chunks := f.chunks, closed := true } ps
  rw [show (clientF A D f.err f.after xs).runs { chunks := f.chunks, closed := true } ps = _ from hd] at h
  exact ⟨keysW xs.length w, length_keysW _ _, fun ops k key hk => each_keys xs _ (each_ops (fun a e d => cliQ_encrypt a e d) xs ops w h) k key (by rw [keys_ops]; exact hk)⟩

/-- **C93, no pair twice.** So, if the key of the session is not by chance the secret agreed with the peer, a server uses no pair of key and nonce twice in a layer, for up to 2^64 packages. -/
theorem C93_server_distinct (hf : ∀ x ∈ xs, x.fresh.length = 32) {w : WState xs.length} {r : RState xs.length} (hd : serverRuns A D xs sc ps = .done w r) (ops : List WOp) (k : Nat) (x : Exchange) (hx : xs[k]? = some x) :
    ∃ log, (logs xs.length (afterOps A xs.length w ops))[k]? = some log ∧ ((∀ e, log[0]? = some e → e.key ≠ x.fresh) → log.length ≤ 2 ^ 64 → (log.map fun e => (e.key, e.nonce)).Nodup) := by
  obtain ⟨log, h1, first, rest, h2, _, h4⟩ := C93_server A D xs sc ps hf hd ops k x hx
  refine ⟨log, h1, fun hk hn => ?_⟩
  subst h2
  rw [List.map_cons, List.nodup_cons]
  refine ⟨fun hm => ?_, numbered_distinct h4 (by simp at hn; omega)⟩
  obtain ⟨e, he, heq⟩ := List.mem_map.1 hm
  obtain ⟨i, hi⟩ := List.getElem?_of_mem he
  exact hk first rfl ((congrArg Prod.fst heq).symm.trans (h4 i e hi).1)

/-- C93, no pair twice: nor does a client, whatever the peer has made it use as a key. -/
theorem C93_client_distinct (hl : 68 + 20 * xs.length < 2 ^ 32) {w : WState xs.length} {r : RState xs.length} (hd : clientRuns A D xs sc ps = .done w r) (ops : List WOp) (k : Nat) (hk : k < xs.length) :
    ∃ log, (logs xs.length (afterOps A xs.length w ops))[k]? = some log ∧ (log.length ≤ 2 ^ 64 → (log.map fun e => (e.key, e.nonce)).Nodup) := by
  obtain ⟨ss, heard, h1, h2⟩ := C93_client A D xs sc ps hl hd
  obtain ⟨log, h3, h4⟩ := h2 ops k _ (List.getElem?_eq_getElem (by rw [hears_length h1]; exact hk))
  exact ⟨log, h3, fun hn => numbered_distinct h4 hn⟩

end

/-- **C93, the two directions.** Client and server have set up any number of layers with each other, and then do whatever they do. In each layer, the client's package number `i` and the server's package number `j` of the session are encrypted with the same key,
and with the same nonce exactly if the numbers are the same, modulo 2^64. (A user would expect that no pair of key and nonce is used by both sides.) -/
theorem C93_directions {A : Aead} {D : DH} {xs : List Exchange} {scC scS : Script} {psC psS : List (List IoAns)} (h : Exchanging A D xs scC scS psC psS) {wC wS : WState xs.length} {rC rS : RState xs.length}
    (hc : clientRuns A D xs scC psC = .done wC rC) (hs : serverRuns A D xs scS psS = .done wS rS) (opsC opsS : List WOp) (k : Nat) (x : Exchange) (hx : xs[k]? = some x) :
    ∃ logC first logS, (logs xs.length (afterOps A xs.length wC opsC))[k]? = some logC ∧ (logs xs.length (afterOps A xs.length wS opsS))[k]? = some (first :: logS) ∧
      ∀ (i j : Nat) (c s : Encryption), logC[i]? = some c → logS[j]? = some s → c.key = x.fresh ∧ s.key = x.fresh ∧ (c.nonce = s.nonce ↔ i % 2 ^ 64 = j % 2 ^ 64) := by
  obtain ⟨_, h1, first, rest, rfl, _, h2⟩ := C93_server A D xs scS psS h.sized.1 hs opsS k x hx
  have hh := (holding_clients A D xs).runs scC psC
  rw [show (client A D xs).runs scC psC = _ from hc] at hh
  have he : keysW xs.length wC = xs.map Exchange.fresh := by
    rw [keys_halves _ _ _ (C80_client_done h hc).2.1, map_clientLayers]
  obtain ⟨_, logC, h3, h4⟩ := each_keys xs _ (each_ops (fun a e d => cliQ_encrypt a e d) xs opsC wC hh) k x.fresh (by rw [keys_ops A, he, List.getElem?_map, hx]; rfl)
  exact ⟨logC, first, rest, h3, h1, fun i j c s hi hj => ⟨(h4 i c hi).1, (h2 j s hj).1, nonce_eq_iff (h4 i c hi).2 (h2 j s hj).2⟩⟩

/-- **C93, two sessions.** A server accepts two connections, in a layer of each the same client. There it encrypts the keys of both sessions with the same key and nonce. (A user would expect that no pair of key and nonce is used twice.) -/
theorem C93_sessions {A : Aead} {D : DH} {xs xs' : List Exchange} {scC scS scC' scS' : Script} {psC psS psC' psS' : List (List IoAns)} (h : Exchanging A D xs scC scS psC psS) (h' : Exchanging A D xs' scC' scS' psC' psS')
    {w : WState xs.length} {r : RState xs.length} {w' : WState xs'.length} {r' : RState xs'.length} (hd : serverRuns A D xs scS psS = .done w r) (hd' : serverRuns A D xs' scS' psS' = .done w' r')
    (k k' : Nat) (x x' : Exchange) (hx : xs[k]? = some x) (hx' : xs'[k']? = some x') (hs : x.server.secret = x'.server.secret) (hc : x.client.secret = x'.client.secret) :
    ∃ first first' log log', (logs xs.length w)[k]? = some (first :: log) ∧ (logs xs'.length w')[k']? = some (first' :: log') ∧ first.plain = x.fresh ∧ first'.plain = x'.fresh ∧ first.key = first'.key ∧ first.nonce = first'.nonce := by
  have key : ∀ {xs : List Exchange} {scC scS : Script} {psC psS : List (List IoAns)}, Exchanging A D xs scC scS psC psS → ∀ {w : WState xs.length} {r : RState xs.length}, serverRuns A D xs scS psS = .done w r →
      ∀ (k : Nat) (x : Exchange), xs[k]? = some x → ∃ first log, (logs xs.length w)[k]? = some (first :: log) ∧ first.plain = x.fresh ∧ first.key = D.dh x.server.secret (D.pub x.client.secret) ∧ Nonce 0 first.nonce := by
    intro xs scC scS psC psS h w r hd k x hx
    obtain ⟨_, h1, first, rest, rfl, ⟨_, _, _, _, h2, h3⟩, _⟩ := C93_server A D xs scS psS h.sized.1 hd [] k x hx
    obtain ⟨hk, _⟩ := List.getElem?_eq_some_iff.1 hx
    obtain ⟨f, lg, g1, g2, _⟩ := C80_server_nonces h hd k x _ hx (List.getElem?_eq_getElem (by rw [length_serverLayers]; exact hk))
    have := (h1.symm.trans g1 :)
    simp only [Option.some.injEq, List.cons.injEq] at this
    exact ⟨first, rest, h1, h3, by rw [this.1, g2], h2⟩
  obtain ⟨f, lg, h1, h2, h3, h4⟩ := key h hd k x hx
  obtain ⟨f', lg', g1, g2, g3, g4⟩ := key h' hd' k' x' hx'
  exact ⟨f, f', lg, lg', h1, g1, h2, g2, by rw [h3, g3, hs, hc], (nonce_eq_iff h4 g4).2 rfl⟩

/-! ### Examples -/

/-- Polls after the set-up: an emit that is dropped while it is written, one that goes on, a shutdown. -/
def exUses : List WOp := [.write (List.replicate 20 1) [], .flush [.ready 5, .pending], .flush [.ready 500, .ready 500, .ready 500, .ready 1, .ready 1], .write [2, 2] [], .flush [.ready 500, .ready 500, .ready 500], .shutdown [.ready 500, .ready 500, .ready 500]]

/-- Which keys and nonces (the number in the 8th byte) each layer has used. -/
def exUsed (n : Nat) (w : WState n) : List (List (Option UInt8 × Option UInt8)) := (logs n w).map fun log => log.map fun e => (e.key[0]?, e.nonce[7]?)

/-- C93, the server, in a concrete case with two layers, `exUses` after the set-up: in each the first nonce is 0, with the secret agreed; then the numbers go on from 0 with the key of the session. The inner layer has carried the exchange of the outer one. -/
example : (∀ x ∈ exLayers, x.fresh.length = 32) ∧
    (match serverRuns toyAead toyDH exLayers exToServer (exPolls 9) with
      | .done w _ => exUsed 2 (afterOps toyAead 2 w exUses)
      | _ => []) = [[(some 10, some 0), (some 5, some 0), (some 5, some 1)], [(some 18, some 0), (some 9, some 0), (some 9, some 1), (some 9, some 2), (some 9, some 3)]] := by decide +kernel

/-- C93, the client, in the same case: the inner layer has carried one package more. So the two sides have used some pairs of key and nonce both. -/
example : (match clientRuns toyAead toyDH exLayers exToClient (exPolls 9) with
      | .done w _ => exUsed 2 (afterOps toyAead 2 w exUses)
      | _ => []) = [[(some 5, some 0), (some 5, some 1)], [(some 9, some 0), (some 9, some 1), (some 9, some 2)]] := by decide +kernel

/-- C93, during the set-up: after a poll the inner layer of the server has encrypted its key, the outer one nothing. -/
example : (match serverRuns toyAead toyDH exLayers exToServer (exPolls 1) with
      | .pending _ s => (serverLogs toyAead toyDH exLayers s).map List.length
      | _ => []) = [0, 1] ∧
    (match clientRuns toyAead toyDH exLayers exToClient (exPolls 1) with
      | .pending _ s => (clientLogs toyAead toyDH exLayers s).map List.length
      | _ => []) = [0, 0] := by decide +kernel

/-- C93, over transports that fail after the set-up. -/
example : (serverRunsF toyAead toyDH exLayers { chunks := exToServer.chunks, err := .other } (exPolls 9)).isDone = true ∧
    (clientRunsF toyAead toyDH exLayers { chunks := exToClient.chunks, err := .other } (exPolls 9)).isDone = true := by decide +kernel

end Bromine.Props
