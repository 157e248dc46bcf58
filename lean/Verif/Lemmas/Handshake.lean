import Verif.Model.Handshake
import Verif.Lemmas.CryptWire
/-
Invariants of the key exchange.
-/
namespace Bromine.Handshake
open Bromine CryptIO CryptWire

/-- The package in which the server sends the session key `fresh` under the key `K`. -/
def secretPkg (A : Aead) (K fresh : Bytes) : Bytes := packageBytes ((A.enc K (nonceFromNumber 0) fresh).getD [])

/-- The encryption that the server does during the exchange. -/
def firstEnc (K fresh : Bytes) : Encryption := { key := K, nonce := nonceFromNumber 0, plain := fresh }

/-- The encryptor after it. -/
def usedEnc (K fresh : Bytes) : Encryptor := { key := K, count := 1, log := [firstEnc K fresh] }

theorem encrypt_fresh {A : Aead} {K fresh : Bytes} (h : fresh.length = 32) :
    ∃ c, Encryptor.encrypt A { key := K } fresh = (.ok c, usedEnc K fresh) ∧ A.enc K (nonceFromNumber 0) fresh = some c ∧
      packageBytes c = secretPkg A K fresh ∧ c.length = 48 := by
  obtain ⟨c, hc⟩ := Option.isSome_iff_exists.1 (A.total K (nonceFromNumber 0) fresh (by omega))
  refine ⟨c, ?_, hc, by simp [secretPkg, hc], by rw [A.len _ _ _ _ hc, h]⟩
  simp [Encryptor.encrypt, hc, usedEnc, firstEnc]

theorem length_secretPkg {A : Aead} {K fresh : Bytes} (h : fresh.length = 32) : (secretPkg A K fresh).length = 52 := by
  obtain ⟨c, -, -, h1, h2⟩ := encrypt_fresh (A := A) (K := K) h
  rw [← h1]
  simp [packageBytes, h2]

theorem complete_secretPkg {A : Aead} {K fresh : Bytes} (h : fresh.length = 32) : complete (secretPkg A K fresh) = true := by
  obtain ⟨c, -, -, h1, h2⟩ := encrypt_fresh (A := A) (K := K) h
  rw [← h1]
  exact complete_package (by omega)

theorem decrypt_secretPkg {A : Aead} {K fresh : Bytes} (h : fresh.length = 32) :
    A.dec K (nonceFromNumber 0) ((secretPkg A K fresh).drop 4) = some fresh := by
  obtain ⟨c, -, h0, h1, h2⟩ := encrypt_fresh (A := A) (K := K) h
  rw [← h1, drop_package, A.dec_iff, h0]

theorem pollWriteAll_pending {rem w rem' : Bytes} {as as' : List IoAns} (h : pollWriteAll rem as = (none, w, rem', as')) : rem' ≠ [] := by
  fun_induction pollWriteAll rem as generalizing w rem' as' with
  | case1 => cases h
  | case2 => cases h; simp
  | case3 => cases h; simp
  | case4 => cases h
  | case5 => cases h
  | case6 b bs n as r0 w0 rem0 as0 heq ih =>
    cases h
    exact ih heq

/-! ### The server -/

/-- The peer's key `other` was accepted: it is what arrived first. -/
def Accepted (D : DH) (keys : Keys) (got inbox other : Bytes) : Prop :=
  other.length = 32 ∧ keys.refuses D other = false ∧ got = other ++ inbox

/-- The write half while it flushes the session key, with `rem` left to be written. -/
def Flushing (K fresh : Bytes) (st : CryptStream) (rem : Bytes) : Prop :=
  ∃ f, st = { read := { dec := { key := K } }, write := { enc := usedEnc K fresh, inner := false, cipher := false, futFlush := some f } } ∧ remOf f = rem

/-- The stream of the server when the exchange is done. -/
def serverStream (K fresh : Bytes) : CryptStream :=
  { read := { dec := { key := fresh } }, write := { enc := { key := fresh, log := [firstEnc K fresh] } } }

def SInv (A : Aead) (D : DH) (keys : Keys) (fresh : Bytes) (ph : SPhase) (got inbox sent : Bytes) : Prop :=
  match ph with
  | .recvPub acc => acc.length < 32 ∧ got = acc ++ inbox ∧ sent = []
  | .sendPub other rem => Accepted D keys got inbox other ∧ rem ≠ [] ∧ sent ++ rem = D.pub keys.secret
  | .flushPub other => Accepted D keys got inbox other ∧ sent = D.pub keys.secret
  | .writeSecret _ => False
  | .flushSecret st => ∃ other rem, Accepted D keys got inbox other ∧ Flushing (D.dh keys.secret other) fresh st rem ∧
      sent ++ rem = D.pub keys.secret ++ secretPkg A (D.dh keys.secret other) fresh
  | .done st => ∃ other, Accepted D keys got inbox other ∧ st = serverStream (D.dh keys.secret other) fresh ∧
      sent = D.pub keys.secret ++ secretPkg A (D.dh keys.secret other) fresh
  | .failed e => (∃ key, e = .unknownPeer key ∧ key.length = 32 ∧ keys.refuses D key = true ∧ got = key ++ inbox ∧ sent = []) ∨
      (∃ er, e = .io er ∧ (sent = [] ∨ ∃ other rest, Accepted D keys got inbox other ∧
        sent ++ rest = D.pub keys.secret ++ secretPkg A (D.dh keys.secret other) fresh))
  | .panicked => False

theorem sFlush_shape {K fresh : Bytes} {as : List IoAns} :
    let ws : WriteStream := { enc := usedEnc K fresh, inner := false, cipher := false }
    let r := pollFutFlush ws as
    r.wire = [] ∧
    ((∃ w, r.poll = .pending w ∧ r.ws = { ws with futFlush := some .flushing }) ∨
     (r.poll = .ready (.ok ()) ∧ r.ws = { enc := usedEnc K fresh }) ∨ (∃ e, r.poll = .ready (.error e) ∧ Bad as)) := by
  simp only [pollFutFlush]
  split
  · exact ⟨rfl, Or.inl ⟨_, rfl, rfl⟩⟩
  · exact ⟨rfl, Or.inl ⟨_, rfl, rfl⟩⟩
  · rename_i e as
    exact ⟨rfl, Or.inr (Or.inr ⟨e, rfl, Or.inl ⟨e, by simp⟩⟩)⟩
  · exact ⟨rfl, Or.inr (Or.inl ⟨rfl, rfl⟩)⟩

theorem sFlushWrite_shape {K fresh rem : Bytes} {as : List IoAns} :
    let ws : WriteStream := { enc := usedEnc K fresh, inner := false, cipher := false }
    let r := pollFlushWrite ws rem as
    (∃ w f, r.poll = .pending w ∧ r.ws = { ws with futFlush := some f } ∧ r.wire ++ remOf f = rem) ∨
     (r.poll = .ready (.ok ()) ∧ r.ws = { enc := usedEnc K fresh } ∧ r.wire = rem) ∨
     (∃ e, r.poll = .ready (.error e) ∧ Bad as ∧ ∃ q, r.wire ++ q = rem) := by
  simp only [pollFlushWrite]
  rcases hp : pollWriteAll rem as with ⟨r0, w, rem', as'⟩
  obtain ⟨h1, h2, h3, h4⟩ := pollWriteAll_spec hp
  rcases r0 with _ | (er | ⟨⟩)
  · exact Or.inl ⟨_, .writing rem', rfl, rfl, h1.symm⟩
  · exact Or.inr (Or.inr ⟨er, rfl, h3 er rfl, rem', h1.symm⟩)
  · have hr := h2 rfl
    subst hr
    rw [List.append_nil] at h1
    subst h1
    obtain ⟨-, g2⟩ := sFlush_shape (K := K) (fresh := fresh) (as := as')
    rcases g2 with ⟨w, g2, g3⟩ | ⟨g2, g3⟩ | ⟨e, g2, g3⟩
    · exact Or.inl ⟨w, .flushing, g2, g3, by simp [remOf]⟩
    · exact Or.inr (Or.inl ⟨g2, g3, rfl⟩)
    · exact Or.inr (Or.inr ⟨e, g2, g3.mono h4, [], by simp⟩)

/-- The result of a poll of the server that has the peer's key. -/
def SRes (A : Aead) (D : DH) (keys : Keys) (fresh got inbox sent : Bytes) (as : List IoAns) (r : Polled SPhase) : Prop :=
  SInv A D keys fresh r.phase got (r.rest ++ inbox) (sent ++ r.sent) ∧ (∀ e, r.phase = .failed e → Bad as)

theorem sFlushSecret_again {A : Aead} {D : DH} {keys : Keys} {fresh got inbox sent : Bytes} {other rem rest : Bytes} {st : CryptStream} {as : List IoAns}
    {pre : Bytes}
    (hacc : Accepted D keys got (rest ++ inbox) other) (hst : Flushing (D.dh keys.secret other) fresh st rem)
    (hs : sent ++ pre ++ rem = D.pub keys.secret ++ secretPkg A (D.dh keys.secret other) fresh) :
    SRes A D keys fresh got inbox sent as (sFlushSecret A fresh st as rest pre) := by
  obtain ⟨f, rfl, hrem⟩ := hst
  have hws : ∃ r : WriteRes Unit, WriteStream.pollFlush A { enc := usedEnc (D.dh keys.secret other) fresh, inner := false, cipher := false, futFlush := some f } as = r ∧
     ((∃ w f', r.poll = .pending w ∧ r.ws = { enc := usedEnc (D.dh keys.secret other) fresh, inner := false, cipher := false, futFlush := some f' } ∧ r.wire ++ remOf f' = rem) ∨
     (r.poll = .ready (.ok ()) ∧ r.ws = { enc := usedEnc (D.dh keys.secret other) fresh } ∧ r.wire = rem) ∨
     (∃ e, r.poll = .ready (.error e) ∧ Bad as ∧ ∃ q, r.wire ++ q = rem)) := by
    refine ⟨_, rfl, ?_⟩
    cases f with
    | writing rem' =>
      simp only [remOf] at hrem
      subst hrem
      have := sFlushWrite_shape (K := D.dh keys.secret other) (fresh := fresh) (rem := rem') (as := as)
      simp only [WriteStream.pollFlush]
      simp only [pollFlushWrite, pollFutFlush] at this ⊢
      exact this
    | flushing =>
      simp only [remOf] at hrem
      subst hrem
      obtain ⟨g1, g2⟩ := sFlush_shape (K := D.dh keys.secret other) (fresh := fresh) (as := as)
      simp only [WriteStream.pollFlush]
      simp only [pollFutFlush] at g1 g2 ⊢
      rcases g2 with ⟨w, g2, g3⟩ | ⟨g2, g3⟩ | ⟨e, g2, g3⟩
      · exact Or.inl ⟨w, .flushing, g2, g3, by rw [g1]; rfl⟩
      · exact Or.inr (Or.inl ⟨g2, g3, g1⟩)
      · exact Or.inr (Or.inr ⟨e, g2, g3, [], by rw [g1]; rfl⟩)
  obtain ⟨r, hr, hcase⟩ := hws
  simp only [sFlushSecret, hr]
  rcases hcase with ⟨w, f', g1, g2, g3⟩ | ⟨g1, g2, g3⟩ | ⟨e, g1, g2, q, g3⟩
  · simp only [g1, g2]
    refine ⟨⟨other, remOf f', hacc, ⟨f', rfl, rfl⟩, ?_⟩, by simp⟩
    rw [← hs, ← g3]; simp
  · simp only [g1, g2]
    refine ⟨⟨other, hacc, rfl, ?_⟩, by simp⟩
    rw [← hs, g3]; simp
  · simp only [g1]
    refine ⟨Or.inr ⟨e, rfl, Or.inr ⟨other, q, hacc, ?_⟩⟩, fun _ _ => g2⟩
    rw [← hs, ← g3]; simp

theorem pollWrite_small {A : Aead} {x : Encryptor} {m : Bytes} {as : List IoAns} (h : m.length < 1024) :
    WriteStream.pollWrite A { enc := x } m as = { poll := .ready (.ok m.length), ws := { enc := x, buffer := m }, rest := as } := by
  simp only [WriteStream.pollWrite, List.nil_append]
  rw [if_neg (by unfold WRITE_BUF_SIZE; omega)]

theorem sWriteSecret_start {A : Aead} {D : DH} {keys : Keys} {fresh got inbox sent : Bytes} {other rest pre : Bytes} {as : List IoAns}
    (hf : fresh.length = 32) (hacc : Accepted D keys got (rest ++ inbox) other) (hs : sent ++ pre = D.pub keys.secret) :
    SRes A D keys fresh got inbox sent as (sWriteSecret A fresh (CryptStream.new (D.dh keys.secret other)) as rest pre) := by
  obtain ⟨c, he, -, hc, -⟩ := encrypt_fresh (A := A) (K := D.dh keys.secret other) hf
  simp only [sWriteSecret, CryptStream.new]
  rw [pollWrite_small (by omega)]
  simp only [List.append_nil]
  have hfl : WriteStream.pollFlush A { enc := { key := D.dh keys.secret other }, buffer := fresh } as
      = pollFlushWrite { enc := usedEnc (D.dh keys.secret other) fresh, inner := false, cipher := false } (packageBytes c) as := by
    have ht : fresh.take u32Max = fresh := List.take_of_length_le (by unfold u32Max; omega)
    have hd : fresh.drop u32Max = [] := List.drop_of_length_le (by unfold u32Max; omega)
    simp only [WriteStream.pollFlush, ht, hd, Bool.and_self, if_true, he]
    rw [if_pos (by omega)]
  have hcase := sFlushWrite_shape (K := D.dh keys.secret other) (fresh := fresh) (rem := packageBytes c) (as := as)
  simp only at hcase
  rw [← hfl] at hcase
  simp only [sFlushSecret]
  generalize WriteStream.pollFlush A { enc := { key := D.dh keys.secret other }, buffer := fresh } as = r at hcase ⊢
  rcases hcase with ⟨w, f', g1, g2, g3⟩ | ⟨g1, g2, g3⟩ | ⟨e, g1, g2, q, g3⟩
  · simp only [g1, g2]
    refine ⟨⟨other, remOf f', hacc, ⟨f', rfl, rfl⟩, ?_⟩, by simp⟩
    rw [← hs, ← hc, ← g3]; simp
  · simp only [g1, g2]
    refine ⟨⟨other, hacc, rfl, ?_⟩, by simp⟩
    rw [← hs, g3, hc]; simp
  · simp only [g1]
    refine ⟨Or.inr ⟨e, rfl, Or.inr ⟨other, q, hacc, ?_⟩⟩, fun _ _ => g2⟩
    rw [← hs, ← hc, ← g3]; simp

theorem sFlushPub_inv {A : Aead} {D : DH} {keys : Keys} {fresh got inbox sent : Bytes} {other rest pre : Bytes} {as : List IoAns}
    (hf : fresh.length = 32) (hacc : Accepted D keys got (rest ++ inbox) other) (hs : sent ++ pre = D.pub keys.secret) :
    SRes A D keys fresh got inbox sent as (sFlushPub A D keys fresh other as rest pre) := by
  unfold sFlushPub
  split
  · exact ⟨⟨hacc, hs⟩, by simp⟩
  · exact ⟨⟨hacc, hs⟩, by simp⟩
  · rename_i e as
    refine ⟨Or.inr ⟨e, rfl, Or.inr ⟨other, secretPkg A (D.dh keys.secret other) fresh, hacc, ?_⟩⟩, fun _ _ => Or.inl ⟨e, by simp⟩⟩
    rw [hs]
  · obtain ⟨h1, h2⟩ := sWriteSecret_start (A := A) (D := D) (as := _) hf hacc hs
    exact ⟨h1, fun e he => (h2 e he).mono (by simp +contextual)⟩

theorem sSendPub_inv {A : Aead} {D : DH} {keys : Keys} {fresh got inbox sent : Bytes} {other rem rest : Bytes} {as : List IoAns}
    (hf : fresh.length = 32) (hacc : Accepted D keys got (rest ++ inbox) other) (hs : sent ++ rem = D.pub keys.secret) :
    SRes A D keys fresh got inbox sent as (sSendPub A D keys fresh other rem as rest) := by
  unfold sSendPub
  rcases hp : pollWriteAll rem as with ⟨r0, w, rem', as'⟩
  obtain ⟨h1, h2, h3, h4⟩ := pollWriteAll_spec hp
  rcases r0 with _ | (er | ⟨⟩)
  · refine ⟨⟨hacc, ?_, by rw [← hs, h1]; simp⟩, by simp⟩
    exact pollWriteAll_pending hp
  · refine ⟨Or.inr ⟨er, rfl, Or.inr ⟨other, rem' ++ secretPkg A (D.dh keys.secret other) fresh, hacc, ?_⟩⟩, fun _ _ => h3 er rfl⟩
    rw [← hs, h1]; simp
  · have hr := h2 rfl
    subst hr
    rw [List.append_nil] at h1
    subst h1
    obtain ⟨g1, g2⟩ := sFlushPub_inv (A := A) (D := D) (as := as') hf hacc hs
    exact ⟨g1, fun e he => (g2 e he).mono h4⟩

theorem pollPub_spec {closed : Bool} {acc inp : Bytes} (h : acc.length < 32) :
    (∃ key rest, pollPub closed acc inp = .got key rest ∧ key.length = 32 ∧ acc ++ inp = key ++ rest) ∨
    (pollPub closed acc inp = .eof ∧ closed = true) ∨ (pollPub closed acc inp = .pending (acc ++ inp) ∧ (acc ++ inp).length < 32) := by
  unfold pollPub
  split
  · refine Or.inl ⟨_, _, rfl, ?_, ?_⟩
    · rw [List.length_append, List.length_take]; omega
    · rw [List.append_assoc, List.take_append_drop]
  · split
    · rename_i hc
      exact Or.inr (Or.inl ⟨rfl, hc⟩)
    · exact Or.inr (Or.inr ⟨rfl, by rw [List.length_append]; omega⟩)

theorem pub_ne (D : DH) (s : Bytes) : D.pub s ≠ [] := by
  intro h
  have := D.pub_len s
  rw [h] at this
  simp at this

theorem serverPoll_inv {A : Aead} {D : DH} {keys : Keys} {fresh got tail inp sent : Bytes} {closed : Bool} {ph : SPhase} {as : List IoAns}
    (hf : fresh.length = 32) (h : SInv A D keys fresh ph got (inp ++ tail) sent) :
    let r := serverPoll A D keys fresh ph closed inp as
    SInv A D keys fresh r.phase got (r.rest ++ tail) (sent ++ r.sent) ∧
    (∀ e, r.phase = .failed e → ph = .failed e ∨ Bad as ∨ e = .io .unexpectedEof ∧ closed = true ∨
      ∃ key, e = .unknownPeer key ∧ keys.refuses D key = true ∧ ∃ l, got = key ++ l ∧ key.length = 32) := by
  cases ph with
  | recvPub acc =>
    obtain ⟨h1, h2, h3⟩ := h
    simp only [serverPoll]
    rcases pollPub_spec (closed := closed) (inp := inp) h1 with ⟨key, rest, g1, g2, g3⟩ | ⟨g1, g2⟩ | ⟨g1, g2⟩
    · simp only [g1]
      have hgot : got = key ++ (rest ++ tail) := by rw [h2, ← List.append_assoc, g3]; simp
      cases hr : keys.refuses D key with
      | true =>
        simp only [if_true]
        refine ⟨Or.inl ⟨key, rfl, g2, hr, hgot, by simp [h3]⟩, ?_⟩
        intro e he
        injection he with he
        exact Or.inr (Or.inr (Or.inr ⟨key, he.symm, hr, _, hgot, g2⟩))
      | false =>
        rw [if_neg (by simp)]
        obtain ⟨i1, i2⟩ := sSendPub_inv (A := A) (D := D) (keys := keys) (as := as) (inbox := tail) (sent := sent) (got := got) (rem := D.pub keys.secret)
          hf ⟨g2, hr, hgot⟩ (by rw [h3]; rfl)
        exact ⟨i1, fun e he => Or.inr (Or.inl (i2 e he))⟩
    · simp only [g1]
      refine ⟨Or.inr ⟨_, rfl, Or.inl (by simp [h3])⟩, ?_⟩
      intro e he
      injection he with he
      exact Or.inr (Or.inr (Or.inl ⟨he.symm, g2⟩))
    · simp only [g1]
      exact ⟨⟨g2, by simp [h2], by simp [h3]⟩, by simp⟩
  | sendPub other rem =>
    obtain ⟨h1, h2, h3⟩ := h
    obtain ⟨i1, i2⟩ := sSendPub_inv (A := A) (D := D) (as := as) hf h1 h3
    exact ⟨i1, fun e he => Or.inr (Or.inl (i2 e he))⟩
  | flushPub other =>
    obtain ⟨h1, h2⟩ := h
    obtain ⟨i1, i2⟩ := sFlushPub_inv (A := A) (D := D) (as := as) (sent := sent) (pre := []) hf h1 (by simpa using h2)
    exact ⟨i1, fun e he => Or.inr (Or.inl (i2 e he))⟩
  | writeSecret st => exact h.elim
  | flushSecret st =>
    obtain ⟨other, rem, h1, h2, h3⟩ := h
    obtain ⟨i1, i2⟩ := sFlushSecret_again (A := A) (D := D) (as := as) (sent := sent) (pre := []) h1 h2 (by simpa using h3)
    exact ⟨i1, fun e he => Or.inr (Or.inl (i2 e he))⟩
  | done st => exact ⟨by simpa [serverPoll] using h, by simp [serverPoll]⟩
  | failed e => exact ⟨by simpa [serverPoll] using h, fun e' he => Or.inl he⟩
  | panicked => exact h.elim

/-- More bytes arrive. -/
theorem SInv.arrive {A : Aead} {D : DH} {keys : Keys} {fresh got inbox sent : Bytes} {ph : SPhase}
    (h : SInv A D keys fresh ph got inbox sent) (bs : Bytes) : SInv A D keys fresh ph (got ++ bs) (inbox ++ bs) sent := by
  have ha : ∀ other, Accepted D keys got inbox other → Accepted D keys (got ++ bs) (inbox ++ bs) other :=
    fun other ⟨a, b, c⟩ => ⟨a, b, by rw [c]; simp⟩
  cases ph with
  | recvPub acc => exact ⟨h.1, by rw [h.2.1]; simp, h.2.2⟩
  | sendPub other rem => exact ⟨ha _ h.1, h.2⟩
  | flushPub other => exact ⟨ha _ h.1, h.2⟩
  | writeSecret st => exact h.elim
  | flushSecret st => obtain ⟨o, r, h1, h2⟩ := h; exact ⟨o, r, ha _ h1, h2⟩
  | done st => obtain ⟨o, h1, h2⟩ := h; exact ⟨o, ha _ h1, h2⟩
  | failed e =>
    rcases h with ⟨k, h1, h2, h3, h4, h5⟩ | ⟨er, h1, h2 | ⟨o, r, h2, h3⟩⟩
    · exact Or.inl ⟨k, h1, h2, h3, by rw [h4]; simp, h5⟩
    · exact Or.inr ⟨er, h1, Or.inl h2⟩
    · exact Or.inr ⟨er, h1, Or.inr ⟨o, r, ha _ h2, h3⟩⟩
  | panicked => exact h.elim

theorem serverStep_inv {A : Aead} {D : DH} {keys : Keys} {fresh : Bytes} {s s' : Side SPhase} {op : Op} (hf : fresh.length = 32)
    (h : SInv A D keys fresh s.phase s.got s.inbox s.sent) (hs : s.step (serverPoll A D keys fresh) op = some s') :
    SInv A D keys fresh s'.phase s'.got s'.inbox s'.sent := by
  cases op with
  | arrive bs =>
    simp only [Side.step] at hs
    split at hs
    · cases hs
    · cases hs; exact h.arrive bs
  | close => cases hs; exact h
  | poll k as =>
    cases hs
    exact (serverPoll_inv (A := A) (D := D) (as := as) (inp := s.inbox.take k) (tail := s.inbox.drop k) hf
      (by rw [List.take_append_drop]; exact h)).1

theorem serverRun_inv {A : Aead} {D : DH} {keys : Keys} {fresh : Bytes} {s s' : Side SPhase} {ops : List Op} (hf : fresh.length = 32)
    (h : SInv A D keys fresh s.phase s.got s.inbox s.sent) (hs : s.run (serverPoll A D keys fresh) ops = some s') :
    SInv A D keys fresh s'.phase s'.got s'.inbox s'.sent := by
  induction ops generalizing s with
  | nil => cases hs; exact h
  | cons op ops ih =>
    obtain ⟨t, h1, h2⟩ := Option.bind_eq_some_iff.1 hs
    exact ih (serverStep_inv hf h h1) h2

theorem serverInit_inv (A : Aead) (D : DH) (keys : Keys) (fresh : Bytes) :
    SInv A D keys fresh serverInit.phase serverInit.got serverInit.inbox serverInit.sent := ⟨by decide, rfl, rfl⟩

end Bromine.Handshake
