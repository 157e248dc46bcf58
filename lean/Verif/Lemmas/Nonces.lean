import Verif.Spec.Nonces
import Verif.Props.Crypt
import Verif.Props.HandshakeErr
import Verif.Lemmas.LayerShutdown
/-
What stays true of the encryptors of all layers, whatever is done with them.
-/
namespace Bromine.Layers
open Bromine CryptIO Spec Props
open Bromine.Handshake (DH Keys)

/-- Every poll of the transport keeps `I`. -/
structure KeepsW {τ B : Type} (T : WriteT τ B) (I : τ → Prop) : Prop where
  write : ∀ t buf, I t → I (T.pollWrite t buf).2
  flush : ∀ t, I t → I (T.pollFlush t).2
  set : ∀ t b, I t → I (T.setBase t b)

theorem KeepsW.writeAll {τ B : Type} {T : WriteT τ B} {I : τ → Prop} (h : KeepsW T I) (t : τ) (rem : Bytes) (ht : I t) : I (Layers.writeAll T t rem).2.2 := by
  induction t, rem using Layers.writeAll.induct T with
  | case1 t => rw [Layers.writeAll]; exact ht
  | case2 t rem hr t' hw => rw [Layers.writeAll]; simp only [hr, hw]; have := h.write t rem ht; rw [hw] at this; exact this
  | case3 t rem hr n t' hw ih => rw [Layers.writeAll]; simp only [hr, hw]; have := h.write t rem ht; rw [hw] at this; exact ih this
  | case4 t rem hr e t' hw => rw [Layers.writeAll]; simp only [hr, hw]; have := h.write t rem ht; rw [hw] at this; exact this
  | case5 t rem hr w t' hw => rw [Layers.writeAll]; simp only [hr, hw]; have := h.write t rem ht; rw [hw] at this; exact this
  | case6 t rem hr t' hw => rw [Layers.writeAll]; simp only [hr, hw]; have := h.write t rem ht; rw [hw] at this; exact this

section
variable {τ B : Type} {T : WriteT τ B} {I : τ → Prop} (h : KeepsW T I) {A : Aead}
include h

theorem keeps_futWrite (ws : WriteStream) (t : τ) (rem : Bytes) (len : Nat) (ht : I t) : (pollFutWrite T ws t rem len).2.1.enc = ws.enc ∧ I (pollFutWrite T ws t rem len).2.2 := by
  have hw := h.writeAll t rem ht
  unfold pollFutWrite
  generalize Layers.writeAll T t rem = x at hw
  obtain ⟨p, rem', t'⟩ := x
  rcases p with (_ | _) | _ | _ <;> exact ⟨rfl, hw⟩

theorem keeps_futFlush (ws : WriteStream) (t : τ) (ht : I t) :
    (Layers.pollFutFlush T ws t).2.1.enc = ws.enc ∧ I (Layers.pollFutFlush T ws t).2.2 ∧ ∀ b, (Layers.pollFutFlush T ws t).1 = .pending b → (Layers.pollFutFlush T ws t).2.1.futFlush.isSome = true := by
  have hw := h.flush t ht
  unfold Layers.pollFutFlush
  generalize T.pollFlush t = x at hw
  obtain ⟨p, t'⟩ := x
  rcases p with (_ | _) | _ | _ <;> exact ⟨rfl, hw, fun b hb => by first | rfl | cases hb⟩

theorem keeps_flushWrite (ws : WriteStream) (t : τ) (rem : Bytes) (ht : I t) :
    (Layers.pollFlushWrite T ws t rem).2.1.enc = ws.enc ∧ I (Layers.pollFlushWrite T ws t rem).2.2 ∧ ∀ b, (Layers.pollFlushWrite T ws t rem).1 = .pending b → (Layers.pollFlushWrite T ws t rem).2.1.futFlush.isSome = true := by
  have hw := h.writeAll t rem ht
  unfold Layers.pollFlushWrite
  generalize Layers.writeAll T t rem = x at hw
  obtain ⟨p, rem', t'⟩ := x
  rcases p with (_ | _) | _ | _
  · exact ⟨rfl, hw, fun b hb => by cases hb⟩
  · exact keeps_futFlush h ws t' hw
  · exact ⟨rfl, hw, fun b hb => rfl⟩
  · exact ⟨rfl, hw, fun b hb => by cases hb⟩

/-- A write or a flush changes the encryptor by at most one encryption. -/
theorem keeps_pollWrite (s : WriteStream × τ) (buf : Bytes) (ht : I s.2) :
    ((Layers.pollWrite T A s buf).2.1.enc = s.1.enc ∨ ∃ d, (Layers.pollWrite T A s buf).2.1.enc = (s.1.enc.encrypt A d).2) ∧ I (Layers.pollWrite T A s buf).2.2 := by
  obtain ⟨ws, t⟩ := s
  unfold Layers.pollWrite
  dsimp only
  split
  · exact ⟨.inl (keeps_futWrite h ws t _ _ ht).1, (keeps_futWrite h ws t _ _ ht).2⟩
  · split
    · split
      · split
        · rename_i he
          exact ⟨.inr ⟨_, (keeps_futWrite h _ t _ _ ht).1.trans (congrArg Prod.snd he :).symm⟩, (keeps_futWrite h _ t _ _ ht).2⟩
        · rename_i he
          exact ⟨.inr ⟨_, (congrArg Prod.snd he :).symm⟩, ht⟩
      · exact ⟨.inl rfl, ht⟩
    · exact ⟨.inl rfl, ht⟩

theorem keeps_pollFlush (s : WriteStream × τ) (ht : I s.2) :
    ((Layers.pollFlush T A s).2.1.enc = s.1.enc ∨ ∃ d, (Layers.pollFlush T A s).2.1.enc = (s.1.enc.encrypt A d).2) ∧ I (Layers.pollFlush T A s).2.2 := by
  obtain ⟨ws, t⟩ := s
  unfold Layers.pollFlush
  dsimp only
  split
  · exact ⟨.inl (keeps_flushWrite h ws t _ ht).1, (keeps_flushWrite h ws t _ ht).2.1⟩
  · exact ⟨.inl (keeps_futFlush h ws t ht).1, (keeps_futFlush h ws t ht).2.1⟩
  · split
    · split
      · split
        · rename_i he
          exact ⟨.inr ⟨_, (keeps_flushWrite h _ t _ ht).1.trans (congrArg Prod.snd he :).symm⟩, (keeps_flushWrite h _ t _ ht).2.1⟩
        · rename_i he
          exact ⟨.inr ⟨_, (congrArg Prod.snd he :).symm⟩, ht⟩
      · exact ⟨.inl (keeps_futFlush h _ t ht).1, (keeps_futFlush h _ t ht).2.1⟩
    · exact ⟨.inl rfl, ht⟩

/-- What is kept by the transport, and what every encryption keeps, is kept by an encrypted layer over the transport. -/
theorem KeepsW.layer {Q : Encryptor → Prop} (hQ : ∀ x d, Q x → Q (x.encrypt A d).2) : KeepsW (encryptedW T A) (fun s => Q s.1.enc ∧ I s.2) where
  write s buf hs := by
    obtain ⟨h1, h2⟩ := keeps_pollWrite h (A := A) s buf hs.2
    refine ⟨?_, h2⟩
    rcases h1 with h1 | ⟨d, h1⟩
    · exact (congrArg Q h1 :).mpr hs.1
    · exact (congrArg Q h1 :).mpr (hQ _ _ hs.1)
  flush s hs := by
    obtain ⟨h1, h2⟩ := keeps_pollFlush h (A := A) s hs.2
    refine ⟨?_, h2⟩
    rcases h1 with h1 | ⟨d, h1⟩
    · exact (congrArg Q h1 :).mpr hs.1
    · exact (congrArg Q h1 :).mpr (hQ _ _ hs.1)
  set s b hs := ⟨hs.1, h.set _ _ hs.2⟩

end

/-! ### One encryptor -/

/-- `old` has been encrypted before; since then all has been encrypted with `key`, with consecutive numbers from 0. -/
def EncOk (old : List Encryption) (key : Bytes) (x : Encryptor) : Prop := ∃ cur, x.log = old ++ cur ∧ x.key = key ∧ x.count = UInt64.ofNat cur.length ∧ Numbered key cur

theorem numbered_snoc {key : Bytes} {cur : List Encryption} (h : Numbered key cur) (d : Bytes) : Numbered key (cur ++ [{ key := key, nonce := nonceFromNumber (UInt64.ofNat cur.length), plain := d }]) := by
  intro i e hi
  rcases Nat.lt_trichotomy i cur.length with hlt | heq | hgt
  · rw [List.getElem?_append_left hlt] at hi
    exact h i e hi
  · subst heq
    rw [List.getElem?_append_right (Nat.le_refl _)] at hi
    simp only [Nat.sub_self, List.getElem?_cons_zero, Option.some.injEq] at hi
    subst hi
    exact ⟨rfl, nonce_spec _⟩
  · rw [List.getElem?_eq_none (by simp; omega)] at hi
    cases hi

theorem encOk_encrypt {A : Aead} {old : List Encryption} {key : Bytes} (x : Encryptor) (d : Bytes) (h : EncOk old key x) : EncOk old key (x.encrypt A d).2 := by
  obtain ⟨cur, h1, h2, h3, h4⟩ := h
  have h0 : (x.encrypt A d).2 = { x with count := x.count + 1, log := x.log ++ [{ key := x.key, nonce := nonceFromNumber x.count, plain := d }] } := by
    unfold Encryptor.encrypt
    simp only
    split <;> rfl
  rw [h0]
  refine ⟨cur ++ [{ key := key, nonce := nonceFromNumber (UInt64.ofNat cur.length), plain := d }], ?_, h2, ?_, numbered_snoc h4 d⟩
  · simp [h1, h2, h3]
  · simp [h3]

/-! ### All layers -/

/-- What is known of the encryptors of all layers: `Q x` of that of the layer `x`. -/
def Each {α : Type} (Q : α → Encryptor → Prop) : (xs : List α) → WState xs.length → Prop
  | [], _ => True
  | x :: xs, (ws, t) => Q x ws.enc ∧ Each Q xs t

theorem keeps_each {α : Type} {A : Aead} {Q : α → Encryptor → Prop} (hQ : ∀ a x d, Q a x → Q a (x.encrypt A d).2) : ∀ xs : List α, KeepsW (layersW A xs.length) (Each Q xs)
  | [] => ⟨fun _ _ _ => trivial, fun _ _ => trivial, fun _ _ _ => trivial⟩
  | x :: xs => (keeps_each hQ xs).layer (A := A) (Q := Q x) (hQ x)

theorem each_shutdown {α : Type} {A : Aead} {Q : α → Encryptor → Prop} (hQ : ∀ a x d, Q a x → Q a (x.encrypt A d).2) : ∀ (xs : List α) (w : WState xs.length), Each Q xs w → Each Q xs (pollShutdown A xs.length w).2.2
  | [], _, _ => trivial
  | x :: xs, (ws, t), h => by
    obtain ⟨h1, h2⟩ := h
    show Each Q (x :: xs) (pollShutdown A (xs.length + 1) (ws, t)).2.2
    cases hs : ws.futShutdown with
    | true =>
      rw [pollShutdown_fut A _ ws t hs]
      have ih := each_shutdown hQ xs t h2
      generalize pollShutdown A xs.length t = y at ih
      obtain ⟨p, b, t'⟩ := y
      rcases p with _ | _ | _ <;> exact ⟨h1, ih⟩
    | false =>
      rw [pollShutdown_flush A _ ws t hs]
      have hf := ((keeps_each hQ xs).layer (A := A) (Q := Q x) (hQ x)).flush (ws, t) ⟨h1, h2⟩
      replace hf : Q x (Layers.pollFlush (layersW A xs.length) A (ws, t)).2.1.enc ∧ Each Q xs (Layers.pollFlush (layersW A xs.length) A (ws, t)).2.2 := hf
      generalize Layers.pollFlush (layersW A xs.length) A (ws, t) = y at hf
      obtain ⟨p, ws', t'⟩ := y
      rcases p with (_ | _) | _ | _
      · exact hf
      · dsimp only
        split <;> exact hf
      · exact hf
      · exact hf

theorem each_op {α : Type} {A : Aead} {Q : α → Encryptor → Prop} (hQ : ∀ a x d, Q a x → Q a (x.encrypt A d).2) (xs : List α) (w : WState xs.length) (h : Each Q xs w) (op : WOp) : Each Q xs (applyW A xs.length w op) := by
  have hk := keeps_each hQ xs
  cases op with
  | write buf as => exact hk.write _ _ (hk.set _ _ h)
  | flush as => exact hk.flush _ (hk.set _ _ h)
  | shutdown as => exact each_shutdown hQ xs _ (hk.set _ _ h)

theorem each_ops {α : Type} {A : Aead} {Q : α → Encryptor → Prop} (hQ : ∀ a x d, Q a x → Q a (x.encrypt A d).2) (xs : List α) (ops : List WOp) : ∀ (w : WState xs.length), Each Q xs w → Each Q xs (afterOps A xs.length w ops) := by
  induction ops with
  | nil => exact fun w h => h
  | cons op ops ih => exact fun w h => ih _ (each_op hQ xs w h op)

theorem each_logs {α : Type} {Q : α → Encryptor → Prop} {P : α → List Encryption → Prop} (hP : ∀ a x, Q a x → P a x.log) : ∀ (xs : List α) (w : WState xs.length), Each Q xs w →
    ∀ (k : Nat) (a : α), xs[k]? = some a → ∃ log, (logs xs.length w)[k]? = some log ∧ P a log
  | [], _, _, k, a, hk => by simp at hk
  | x :: xs, (ws, t), h, 0, a, hk => by
    simp only [List.getElem?_cons_zero, Option.some.injEq] at hk
    subst hk
    exact ⟨_, rfl, hP _ _ h.1⟩
  | x :: xs, (ws, t), h, k + 1, a, hk => each_logs hP xs t h.2 k a (by simpa using hk)

/-! ### Reading exactly so many bytes -/

/-- A read gives at most what there is room for. -/
def ShortR {ρ : Type} (R : ReadT ρ) : Prop := ∀ r want, (R.pollRead r want).2.1.length ≤ want

theorem ShortR.fill {ρ : Type} {R : ReadT ρ} (h : ShortR R) (int : Bool) {n : Nat} {got got' : Bytes} {r r' : ρ} (hl : got.length ≤ n) (hd : Layers.fill R int n got r = .done got' r') : got'.length = n := by
  induction got, r using Layers.fill.induct R n with
  | case1 got r hn =>
    rw [Layers.fill, if_pos hn] at hd
    injection hd with h1 h2
    subst h1
    omega
  | case2 got r hn u r1 hr => rw [Layers.fill, if_neg hn, hr] at hd; cases hd
  | case3 got r hn u b bs r1 hr ih =>
    rw [Layers.fill, if_neg hn, hr] at hd
    have := h r (n - got.length)
    rw [hr] at this
    dsimp only at this
    exact ih (by rw [List.length_append]; omega) hd
  | case4 got r hn e bs r1 hr => rw [Layers.fill, if_neg hn, hr] at hd; cases hd
  | case5 got r hn w bs r1 hr => rw [Layers.fill, if_neg hn, hr] at hd; cases hd
  | case6 got r hn bs r1 hr => rw [Layers.fill, if_neg hn, hr] at hd; cases hd

theorem short_socket : ShortR socketR := by
  intro r want
  unfold socketR
  dsimp only
  split
  · split <;> simp
  · simp
  · simp; omega

theorem short_fut {ρ : Type} (R : ReadT ρ) (A : Aead) (rs : ReadStream) (r : ρ) (want : Nat) : (Layers.pollFutRead R A rs r want).2.1.length ≤ want := by
  unfold Layers.pollFutRead
  split
  · split
    · simp
    · simp
    · simp
    · split
      · simp
      · simp; omega
  · simp

theorem short_encrypted {ρ : Type} (R : ReadT ρ) (A : Aead) : ShortR (encryptedR R A) := by
  intro s want
  obtain ⟨rs, r⟩ := s
  show (Layers.pollRead R A (rs, r) want).2.1.length ≤ want
  unfold Layers.pollRead
  dsimp only
  split
  · exact short_fut R A rs r want
  · split
    · have := short_fut R A { rs with remaining := rs.remaining.drop want, fut := some (.reading []) } r (want - (rs.remaining.take want).length)
      dsimp only
      rw [List.length_append]
      exact Nat.le_trans (Nat.add_le_add_left this _) (by rename_i hlt; omega)
    · simp; omega

theorem short_layers (A : Aead) : ∀ n, ShortR (layersR A n)
  | 0 => short_socket
  | n + 1 => short_encrypted (layersR A n) A

theorem ShortR.fill_pending {ρ : Type} {R : ReadT ρ} (h : ShortR R) (int : Bool) {n : Nat} {got got' : Bytes} {b : Bool} {r r' : ρ} (hl : got.length ≤ n) (hd : Layers.fill R int n got r = .pending b got' r') : got'.length ≤ n := by
  induction got, r using Layers.fill.induct R n with
  | case1 got r hn => rw [Layers.fill, if_pos hn] at hd; cases hd
  | case2 got r hn u r1 hr => rw [Layers.fill, if_neg hn, hr] at hd; cases hd
  | case3 got r hn u b bs r1 hr ih =>
    rw [Layers.fill, if_neg hn, hr] at hd
    have := h r (n - got.length)
    rw [hr] at this
    dsimp only at this
    exact ih (by rw [List.length_append]; omega) hd
  | case4 got r hn e bs r1 hr => rw [Layers.fill, if_neg hn, hr] at hd; cases hd
  | case5 got r hn w bs r1 hr =>
    rw [Layers.fill, if_neg hn, hr] at hd
    have := h r (n - got.length)
    rw [hr] at this
    dsimp only at this hd
    injection hd with h1 h2 h3
    subst h2
    split
    · omega
    · rw [List.length_append]; omega
  | case6 got r hn bs r1 hr => rw [Layers.fill, if_neg hn, hr] at hd; cases hd

theorem short_socketF : ShortR socketF := by
  intro r want
  unfold socketF
  dsimp only
  split
  · simp
  · simp; omega
  · split
    · simp
    · exact short_socket r.after want

theorem short_layersF (A : Aead) : ∀ n, ShortR (layersF A n)
  | 0 => short_socketF
  | n + 1 => short_encrypted (layersF A n) A

/-! ### Set-ups -/

/-- While the future is pending `st` holds of it, when it is done `dn` of the write halves. -/
def SetupI {σ τ ρ : Type} (st : σ → Prop) (dn : τ → Prop) : Setup σ τ ρ → Prop
  | .pending _ s => st s
  | .done w _ => dn w
  | .failed _ _ => True
  | .panicked _ => True

/-- Every poll keeps this. -/
structure Holding {τ ρ : Type} (c : Connecting τ ρ) (st : c.State → Prop) (dn : τ → Prop) : Prop where
  init : ∀ sc, st (c.init sc)
  poll : ∀ s, st s → SetupI st dn (c.poll s)
  set : ∀ s b, st s → st (c.setSock s b)

theorem Holding.run {τ ρ : Type} {c : Connecting τ ρ} {st : c.State → Prop} {dn : τ → Prop} (h : Holding c st dn) : ∀ (ps : List (List IoAns)) (x : Setup c.State τ ρ), SetupI st dn x → SetupI st dn (c.run x ps) := by
  intro ps
  induction ps with
  | nil => intro x hx; cases x <;> exact hx
  | cons as ps ih =>
    intro x hx
    cases x with
    | pending b s => exact ih _ (h.poll _ (h.set _ _ hx))
    | done w r => exact hx
    | failed e k => exact hx
    | panicked k => exact hx

theorem Holding.runs {τ ρ : Type} {c : Connecting τ ρ} {st : c.State → Prop} {dn : τ → Prop} (h : Holding c st dn) (sc : Script) (ps : List (List IoAns)) : SetupI st dn (c.runs sc ps) := h.run ps _ (h.init sc)

theorem Holding.andThen {τ ρ φ τ' ρ' : Type} {c : Connecting τ ρ} {st : c.State → Prop} {dn : τ → Prop} (h : Holding c st dn) {start : τ → ρ → Setup φ τ' ρ'} {next : φ → Setup φ τ' ρ'} {sock : φ → Socket} {set : Socket → φ → φ}
    {ph : φ → Prop} {dn' : τ' → Prop} (h1 : ∀ w r, dn w → SetupI ph dn' (start w r)) (h2 : ∀ x, ph x → SetupI ph dn' (next x)) (h3 : ∀ b x, ph x → ph (set b x)) :
    Holding (c.andThen start next sock set) (Sum.elim st ph) dn' where
  init sc := h.init sc
  poll s hs := by
    cases s with
    | inl s =>
      have hp := h.poll s hs
      unfold Connecting.andThen
      dsimp only
      generalize c.poll s = y at hp
      cases y with
      | pending b s => exact hp
      | failed e k => trivial
      | panicked k => trivial
      | done w r =>
        have hw := h1 w r hp
        dsimp only
        generalize start w r = z at hw
        cases z <;> exact hw
    | inr x =>
      have hp := h2 x hs
      unfold Connecting.andThen
      dsimp only
      generalize next x = z at hp
      cases z <;> exact hp
  set s b hs := by
    cases s with
    | inl s => exact h.set s b hs
    | inr x => exact h3 b x hs

section
variable {τ ρ : Type} {W : WriteT τ Socket} {R : ReadT ρ} {I : τ → Prop} (hW : KeepsW W I) (hR : ShortR R) (A : Aead) (D : DH) (x : Exchange)

/-- This key has been accepted. -/
def Accepted (keys : Keys) (peer : Bytes) : Prop := peer.length = 32 ∧ Trusts D keys peer

/-- The encryptor after it has encrypted the key of the session. -/
def introduced (peer : Bytes) : Encryptor := { key := D.dh x.server.secret peer, count := 1, log := [{ key := D.dh x.server.secret peer, nonce := nonceFromNumber 0, plain := x.fresh }] }

/-- Of the encryptor of a server, when its exchange is done. -/
def SrvQ (x : Exchange) (e : Encryptor) : Prop := ∃ first, Introduces D x first ∧ EncOk [first] x.fresh e

/-- Of the server during its exchange. -/
def SrvI (I : τ → Prop) : SrvPhase τ ρ → Prop
  | .recvPub acc w _ => acc.length ≤ 32 ∧ I w
  | .sendPub other _ w _ => Accepted D x.server other ∧ I w
  | .flushPub other w _ => Accepted D x.server other ∧ I w
  | .writeSecret _ _ _ => False
  | .flushSecret w _ => I w.2 ∧ ∃ peer, Accepted D x.server peer ∧
      (w.1 = { enc := { key := D.dh x.server.secret peer }, buffer := x.fresh } ∨ (w.1.futFlush.isSome = true ∧ w.1.enc = introduced D x peer))

/-- Of the write halves, when it is done. -/
def SrvDone (I : τ → Prop) (w : WriteStream × τ) : Prop := SrvQ D x w.1.enc ∧ I w.2

theorem srvQ_rekey {w : WriteStream × τ} {peer : Bytes} (hp : Accepted D x.server peer) (hw : w.1.enc = introduced D x peer) : SrvQ D x (rekeyW x.fresh w).1.enc := by
  refine ⟨{ key := D.dh x.server.secret peer, nonce := nonceFromNumber 0, plain := x.fresh }, ⟨peer, hp.1, hp.2, rfl, nonce_spec 0, rfl⟩, [], ?_, rfl, rfl, by intro i e h; simp at h⟩
  show w.1.enc.log = _
  rw [hw]
  rfl

include hW in
theorem srv_flushSecret (hf : x.fresh.length = 32) (w : WriteStream × τ) (r : ReadStream × ρ) (h : SrvI D x I (.flushSecret w r)) : SetupI (SrvI D x I) (SrvDone D x I) (sFlushSecret W A x.fresh w r) := by
  obtain ⟨h1, peer, hp, h2⟩ := h
  obtain ⟨ws, t⟩ := w
  have key : ((Layers.pollFlush W A (ws, t)).2.1.enc = introduced D x peer ∧ I (Layers.pollFlush W A (ws, t)).2.2 ∧ ∀ b, (Layers.pollFlush W A (ws, t)).1 = .pending b → (Layers.pollFlush W A (ws, t)).2.1.futFlush.isSome = true) ∨
      ∃ e, (Layers.pollFlush W A (ws, t)).1 = .ready (.error e) := by
    rcases h2 with h2 | ⟨h2, h3⟩
    · dsimp only at h2
      subst h2
      have ht : x.fresh.take u32Max = x.fresh := List.take_of_length_le (by rw [hf]; decide)
      unfold Layers.pollFlush
      dsimp only
      rw [if_pos (by rfl), ht, if_pos (by rw [hf]; decide)]
      cases he : Encryptor.encrypt A { key := D.dh x.server.secret peer } x.fresh with
      | mk c e =>
        have he' : e = introduced D x peer := by
          have := congrArg Prod.snd he
          unfold Encryptor.encrypt at this
          dsimp only at this
          rw [← this]
          split <;> rfl
        cases c with
        | error e => exact .inr ⟨_, rfl⟩
        | ok c =>
          subst he'
          exact .inl (keeps_flushWrite hW { enc := introduced D x peer, inner := false, cipher := false, buffer := x.fresh.drop u32Max } t (packageBytes c) h1)
    · dsimp only at h2 h3
      unfold Layers.pollFlush
      dsimp only
      cases hfl : ws.futFlush with
      | none => rw [hfl] at h2; cases h2
      | some f =>
        cases f with
        | writing rem =>
          obtain ⟨g1, g2, g3⟩ := keeps_flushWrite hW ws t rem h1
          exact .inl ⟨g1.trans h3, g2, g3⟩
        | flushing =>
          obtain ⟨g1, g2, g3⟩ := keeps_futFlush hW ws t h1
          exact .inl ⟨g1.trans h3, g2, g3⟩
  unfold sFlushSecret
  have hdef : (encryptedW W A).pollFlush (ws, t) = Layers.pollFlush W A (ws, t) := rfl
  rw [hdef]
  generalize Layers.pollFlush W A (ws, t) = y at key
  obtain ⟨p, ws, t⟩ := y
  rcases key with ⟨hy2, hy1, hy3⟩ | ⟨e, he⟩
  · rcases p with (_ | _) | _ | _
    · trivial
    · exact ⟨srvQ_rekey D x hp hy2, hy1⟩
    · exact ⟨hy1, peer, hp, .inr ⟨hy3 _ rfl, hy2⟩⟩
    · trivial
  · dsimp only at he
    subst he
    trivial

include hW in
theorem srv_writeSecret (hf : x.fresh.length = 32) {peer : Bytes} (hp : Accepted D x.server peer) (t : τ) (ht : I t) (r : ReadStream × ρ) :
    SetupI (SrvI D x I) (SrvDone D x I) (sWriteSecret W A x.fresh x.fresh (newW (D.dh x.server.secret peer) t) r) := by
  have hw : Layers.writeAll (encryptedW W A) (newW (D.dh x.server.secret peer) t) x.fresh = (.ready (.ok ()), [], ({ enc := { key := D.dh x.server.secret peer }, buffer := x.fresh }, t)) := by
    have hpw : (encryptedW W A).pollWrite (newW (D.dh x.server.secret peer) t) x.fresh = (.ready (.ok x.fresh.length), ({ enc := { key := D.dh x.server.secret peer }, buffer := x.fresh }, t)) := by
      show Layers.pollWrite W A (newW (D.dh x.server.secret peer) t) x.fresh = _
      unfold Layers.pollWrite newW
      dsimp only
      rw [List.nil_append, if_neg (by rw [hf]; decide)]
    rw [Layers.writeAll]
    have hne : x.fresh ≠ [] := by intro h; rw [h] at hf; cases hf
    rw [hf] at hpw
    simp only [hne, hpw]
    rw [show x.fresh.drop (31 + 1) = [] from List.drop_of_length_le (by omega), Layers.writeAll]
    rfl
  unfold sWriteSecret
  rw [hw]
  exact srv_flushSecret hW A D x hf _ r ⟨ht, peer, hp, .inl rfl⟩

include hW in
theorem srv_flushPub (hf : x.fresh.length = 32) {peer : Bytes} (hp : Accepted D x.server peer) (t : τ) (ht : I t) (r : ρ) :
    SetupI (SrvI D x I) (SrvDone D x I) (sFlushPub W A D x.server x.fresh peer t r) := by
  have hw := hW.flush t ht
  unfold sFlushPub
  generalize W.pollFlush t = y at hw
  obtain ⟨p, t'⟩ := y
  rcases p with (_ | _) | _ | _
  · trivial
  · exact srv_writeSecret hW A D x hf hp t' hw _
  · exact ⟨hp, hw⟩
  · trivial

include hW in
theorem srv_sendPub (hf : x.fresh.length = 32) {peer : Bytes} (hp : Accepted D x.server peer) (rem : Bytes) (t : τ) (ht : I t) (r : ρ) :
    SetupI (SrvI D x I) (SrvDone D x I) (sSendPub W A D x.server x.fresh peer rem t r) := by
  have hw := hW.writeAll t rem ht
  unfold sSendPub
  generalize Layers.writeAll W t rem = y at hw
  obtain ⟨p, rem', t'⟩ := y
  rcases p with (_ | _) | _ | _
  · trivial
  · exact srv_flushPub hW A D x hf hp t' hw _
  · exact ⟨hp, hw⟩
  · trivial

include hW hR in
theorem srv_recvPub (hf : x.fresh.length = 32) (acc : Bytes) (ha : acc.length ≤ 32) (t : τ) (ht : I t) (r : ρ) :
    SetupI (SrvI D x I) (SrvDone D x I) (sRecvPub W R A D x.server x.fresh acc t r) := by
  unfold sRecvPub
  cases hd : Layers.fill R false 32 acc r with
  | done other r' =>
    dsimp only
    split
    · trivial
    · rename_i hr
      have htr : Trusts D x.server other := Classical.byContradiction fun hn => hr (not_trusts_iff.1 hn)
      exact srv_sendPub hW A D x hf ⟨hR.fill false ha hd, htr⟩ _ t ht r'
  | pending b acc' r' => exact ⟨hR.fill_pending false ha hd, ht⟩
  | fail e r' => trivial
  | panic r' => trivial

include hW hR in
theorem holding_server (hf : x.fresh.length = 32) {c : Connecting τ ρ} {st : c.State → Prop} (h : Holding c st I) :
    Holding (serverLayer W R A D x.server x.fresh c) (Sum.elim st (SrvI D x I)) (SrvDone D x I) := by
  refine h.andThen (fun w r hw => srv_recvPub hW hR A D x hf [] (by simp) w hw r) ?_ ?_
  · intro ph hph
    cases ph with
    | recvPub acc w r => exact srv_recvPub hW hR A D x hf acc hph.1 w hph.2 r
    | sendPub other rem w r => exact srv_sendPub hW A D x hf hph.1 rem w hph.2 r
    | flushPub other w r => exact srv_flushPub hW A D x hf hph.1 w hph.2 r
    | writeSecret rem w r => exact hph.elim
    | flushSecret w r => exact srv_flushSecret hW A D x hf w r hph
  · intro b ph hph
    cases ph with
    | recvPub acc w r => exact ⟨hph.1, hW.set _ _ hph.2⟩
    | sendPub other rem w r => exact ⟨hph.1, hW.set _ _ hph.2⟩
    | flushPub other w r => exact ⟨hph.1, hW.set _ _ hph.2⟩
    | writeSecret rem w r => exact hph.elim
    | flushSecret w r => exact ⟨hW.set _ _ hph.1, hph.2⟩

/-- Of the encryptor of a client, when its exchange is done. -/
def CliQ (e : Encryptor) : Prop := ∃ key, key.length = 32 ∧ EncOk [] key e

/-- Of the client during its exchange. -/
def CliI (I : τ → Prop) : CliPhase τ ρ → Prop
  | .sendPub _ w _ => I w
  | .flushPub w _ => I w
  | .recvPub acc w _ => acc.length ≤ 32 ∧ I w
  | .recvSecret got w _ => got.length ≤ 32 ∧ w.1.enc.log = [] ∧ I w.2

/-- Of the write halves, when it is done. -/
def CliDone (I : τ → Prop) (w : WriteStream × τ) : Prop := CliQ w.1.enc ∧ I w.2

theorem cli_recvSecret (got : Bytes) (w : WriteStream × τ) (r : ReadStream × ρ) (h : CliI I (.recvSecret got w r)) : SetupI (CliI I) (CliDone I) (cRecvSecret W R A got w r) := by
  obtain ⟨h1, h2, h3⟩ := h
  unfold cRecvSecret
  cases hd : Layers.fill (encryptedR R A) false 32 got r with
  | done key r' => exact ⟨⟨key, (short_encrypted R A).fill false h1 hd, [], h2, rfl, rfl, by intro i e h; simp at h⟩, h3⟩
  | pending b got' r' => exact ⟨(short_encrypted R A).fill_pending false h1 hd, h2, h3⟩
  | fail e r' => trivial
  | panic r' => trivial

include hR in
theorem cli_recvPub (keys : Keys) (acc : Bytes) (ha : acc.length ≤ 32) (t : τ) (ht : I t) (r : ρ) : SetupI (CliI I) (CliDone I) (cRecvPub W R A D keys acc t r) := by
  unfold cRecvPub
  cases hd : Layers.fill R false 32 acc r with
  | done other r' =>
    dsimp only
    split
    · trivial
    · exact cli_recvSecret A [] _ _ ⟨by simp, rfl, ht⟩
  | pending b acc' r' => exact ⟨hR.fill_pending false ha hd, ht⟩
  | fail e r' => trivial
  | panic r' => trivial

include hW hR in
theorem cli_flushPub (keys : Keys) (t : τ) (ht : I t) (r : ρ) : SetupI (CliI I) (CliDone I) (cFlushPub W R A D keys t r) := by
  have hw := hW.flush t ht
  unfold cFlushPub
  generalize W.pollFlush t = y at hw
  obtain ⟨p, t'⟩ := y
  rcases p with (_ | _) | _ | _
  · trivial
  · exact cli_recvPub hR A D keys [] (by simp) t' hw r
  · exact hw
  · trivial

include hW hR in
theorem cli_sendPub (keys : Keys) (rem : Bytes) (t : τ) (ht : I t) (r : ρ) : SetupI (CliI I) (CliDone I) (cSendPub W R A D keys rem t r) := by
  have hw := hW.writeAll t rem ht
  unfold cSendPub
  generalize Layers.writeAll W t rem = y at hw
  obtain ⟨p, rem', t'⟩ := y
  rcases p with (_ | _) | _ | _
  · trivial
  · exact cli_flushPub hW hR A D keys t' hw r
  · exact hw
  · trivial

include hW hR in
theorem holding_client (keys : Keys) {c : Connecting τ ρ} {st : c.State → Prop} (h : Holding c st I) : Holding (clientLayer W R A D keys c) (Sum.elim st (CliI I)) (CliDone I) := by
  refine h.andThen (fun w r hw => cli_sendPub hW hR A D keys _ w hw r) ?_ ?_
  · intro ph hph
    cases ph with
    | recvPub acc w r => exact cli_recvPub hR A D keys acc hph.1 w hph.2 r
    | sendPub rem w r => exact cli_sendPub hW hR A D keys rem w hph r
    | flushPub w r => exact cli_flushPub hW hR A D keys w hph r
    | recvSecret got w r => exact cli_recvSecret A got w r hph
  · intro b ph hph
    cases ph with
    | recvPub acc w r => exact ⟨hph.1, hW.set _ _ hph.2⟩
    | sendPub rem w r => exact hW.set _ _ hph
    | flushPub w r => exact hW.set _ _ hph
    | recvSecret got w r => exact ⟨hph.1, hph.2.1, hW.set _ _ hph.2.2⟩

end

theorem srvQ_encrypt {A : Aead} (D : DH) (a : Exchange) (e : Encryptor) (d : Bytes) (h : SrvQ D a e) : SrvQ D a (e.encrypt A d).2 := by
  obtain ⟨f, h1, h2⟩ := h
  exact ⟨f, h1, encOk_encrypt e d h2⟩

theorem cliQ_encrypt {A : Aead} (_a : Exchange) (e : Encryptor) (d : Bytes) (h : CliQ e) : CliQ (e.encrypt A d).2 := by
  obtain ⟨k, h1, h2⟩ := h
  exact ⟨k, h1, encOk_encrypt e d h2⟩

end Bromine.Layers
