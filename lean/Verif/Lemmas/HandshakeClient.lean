import Verif.Lemmas.Handshake
/-
Invariants of the key exchange: the client, and both together.
-/
namespace Bromine.Handshake
open Bromine CryptIO CryptWire

/-! ### The client with an arbitrary peer -/

def CInv (D : DH) (keys : Keys) (ph : CPhase) (got inbox sent : Bytes) : Prop :=
  let Has (other : Bytes) : Prop := other.length = 32 ∧ ∃ l, got = other ++ l
  match ph with
  | .sendPub rem => rem ≠ [] ∧ sent ++ rem = D.pub keys.secret ∧ got = inbox
  | .flushPub => sent = D.pub keys.secret ∧ got = inbox
  | .recvPub acc => acc.length < 32 ∧ got = acc ++ inbox ∧ sent = D.pub keys.secret
  | .recvSecret st _ => sent = D.pub keys.secret ∧ st.read.fut ≠ some .finished ∧ ∃ other, Has other ∧ keys.refuses D other = false
  | .done _ => sent = D.pub keys.secret ∧ ∃ other, Has other ∧ keys.refuses D other = false
  | .failed e => (∃ rest, sent ++ rest = D.pub keys.secret) ∧
      ((∃ er, e = .io er) ∨ ∃ other, e = .unknownPeer other ∧ Has other ∧ keys.refuses D other = true)
  | .panicked => False

theorem pollRead_fut {A : Aead} {closed : Bool} {rs : ReadStream} {want : Nat} {cs : List Chunk} (h : rs.fut ≠ some .finished) :
    (rs.pollRead A closed want cs).poll ≠ .panic ∧
    ((∀ er, (rs.pollRead A closed want cs).poll ≠ .ready (.error er)) → (rs.pollRead A closed want cs).rs.fut ≠ some .finished) := by
  have key : ∀ (rs : ReadStream) (want : Nat) (acc : Bytes), rs.fut = some (.reading acc) → (pollFutRead A closed rs want cs).poll ≠ .panic ∧
      ((∀ er, (pollFutRead A closed rs want cs).poll ≠ .ready (.error er)) → (pollFutRead A closed rs want cs).rs.fut ≠ some .finished) := by
    intro rs want acc hf
    unfold pollFutRead
    simp only [hf]
    split
    · simp
    · simp
    · split
      · simp
      · simp only
        split <;> simp
  unfold ReadStream.pollRead
  split
  · rename_i f hf
    cases f with
    | reading acc => exact key rs want acc hf
    | finished => exact absurd hf h
  · rename_i hf
    simp only
    split
    · exact key _ _ [] rfl
    · simp [hf]

theorem cRecvSecret_inv {A : Aead} {D : DH} {keys : Keys} {got inbox sent pre : Bytes} {st : CryptStream} {g inp other : Bytes} {closed : Bool}
    (hs : sent ++ pre = D.pub keys.secret) (hf : st.read.fut ≠ some .finished) (ho : other.length = 32) (hg : ∃ l, got = other ++ l)
    (hr : keys.refuses D other = false) :
    let r := cRecvSecret A st g closed inp pre
    CInv D keys r.phase got (r.rest ++ inbox) (sent ++ r.sent) := by
  obtain ⟨h1, h2⟩ := pollRead_fut (A := A) (closed := closed) (want := 32 - g.length) (cs := toChunks inp) hf
  simp only [cRecvSecret]
  split
  · rename_i hp
    exact ⟨hs, h2 (by simp [hp]), other, ⟨ho, hg⟩, hr⟩
  · rename_i hp
    exact absurd hp h1
  · exact ⟨⟨[], by simpa using hs⟩, Or.inl ⟨_, rfl⟩⟩
  · exact ⟨hs, other, ⟨ho, hg⟩, hr⟩

theorem cRecvPub_inv {A : Aead} {D : DH} {keys : Keys} {got tail sent pre : Bytes} {acc inp : Bytes} {closed : Bool}
    (hs : sent ++ pre = D.pub keys.secret) (hl : acc.length < 32) (hg : got = acc ++ (inp ++ tail)) :
    let r := cRecvPub A D keys acc closed inp pre
    CInv D keys r.phase got (r.rest ++ tail) (sent ++ r.sent) := by
  simp only [cRecvPub]
  rcases pollPub_spec (closed := closed) (inp := inp) hl with ⟨key, rest, g1, g2, g3⟩ | ⟨g1, g2⟩ | ⟨g1, g2⟩
  · simp only [g1]
    have hgot : got = key ++ (rest ++ tail) := by rw [hg, ← List.append_assoc, g3]; simp
    cases hr : keys.refuses D key with
    | true =>
      simp only [if_true]
      exact ⟨⟨[], by simpa using hs⟩, Or.inr ⟨key, rfl, ⟨g2, _, hgot⟩, hr⟩⟩
    | false =>
      rw [if_neg (by simp)]
      exact cRecvSecret_inv hs (by simp [CryptStream.new]) g2 ⟨_, hgot⟩ hr
  · simp only [g1]
    exact ⟨⟨[], by simpa using hs⟩, Or.inl ⟨_, rfl⟩⟩
  · simp only [g1]
    exact ⟨g2, by simp [hg], hs⟩

theorem cFlushPub_inv {A : Aead} {D : DH} {keys : Keys} {got tail sent pre : Bytes} {inp : Bytes} {closed : Bool} {as : List IoAns}
    (hs : sent ++ pre = D.pub keys.secret) (hg : got = inp ++ tail) :
    let r := cFlushPub A D keys closed as inp pre
    CInv D keys r.phase got (r.rest ++ tail) (sent ++ r.sent) := by
  simp only [cFlushPub]
  split
  · exact ⟨hs, hg⟩
  · exact ⟨hs, hg⟩
  · exact ⟨⟨[], by simpa using hs⟩, Or.inl ⟨_, rfl⟩⟩
  · exact cRecvPub_inv hs (by simp) (by simpa using hg)

theorem clientPoll_inv {A : Aead} {D : DH} {keys : Keys} {got tail inp sent : Bytes} {closed : Bool} {ph : CPhase} {as : List IoAns}
    (h : CInv D keys ph got (inp ++ tail) sent) :
    let r := clientPoll A D keys ph closed inp as
    CInv D keys r.phase got (r.rest ++ tail) (sent ++ r.sent) := by
  cases ph with
  | sendPub rem =>
    obtain ⟨h1, h2, h3⟩ := h
    simp only [clientPoll]
    rcases hp : pollWriteAll rem as with ⟨r0, w, rem', as'⟩
    obtain ⟨g1, g2, -, -⟩ := pollWriteAll_spec hp
    rcases r0 with _ | (er | ⟨⟩)
    · exact ⟨pollWriteAll_pending hp, by rw [← h2, g1]; simp, h3⟩
    · exact ⟨⟨rem', by rw [← h2, g1]; simp⟩, Or.inl ⟨_, rfl⟩⟩
    · have hr := g2 rfl
      subst hr
      rw [List.append_nil] at g1
      subst g1
      exact cFlushPub_inv h2 h3
  | flushPub => exact cFlushPub_inv (by simpa using h.1) h.2
  | recvPub acc => exact cRecvPub_inv (by simpa using h.2.2) h.1 h.2.1
  | recvSecret st g =>
    obtain ⟨h1, h2, o, ⟨h3, h4⟩, h5⟩ := h
    exact cRecvSecret_inv (by simpa using h1) h2 h3 h4 h5
  | done st => simpa [clientPoll] using h
  | failed e => simpa [clientPoll] using h
  | panicked => exact h.elim

theorem clientStep_inv {A : Aead} {D : DH} {keys : Keys} {s s' : Side CPhase} {op : Op}
    (h : CInv D keys s.phase s.got s.inbox s.sent) (hs : s.step (clientPoll A D keys) op = some s') :
    CInv D keys s'.phase s'.got s'.inbox s'.sent := by
  cases op with
  | arrive bs =>
    simp only [Side.step] at hs
    split at hs
    · cases hs
    · cases hs
      rcases s with ⟨ph, inbox, closed, sent, got⟩
      have hl : ∀ other : Bytes, (∃ l, got = other ++ l) → ∃ l, got ++ bs = other ++ l := fun o ⟨l, hl⟩ => ⟨l ++ bs, by rw [hl]; simp⟩
      cases ph with
      | sendPub rem => exact ⟨h.1, h.2.1, by rw [show got = inbox from h.2.2]⟩
      | flushPub => exact ⟨h.1, by rw [show got = inbox from h.2]⟩
      | recvPub acc => exact ⟨h.1, by rw [show got = acc ++ inbox from h.2.1]; simp, h.2.2⟩
      | recvSecret st g => obtain ⟨h1, h2, o, ⟨h3, h4⟩, h5⟩ := h; exact ⟨h1, h2, o, ⟨h3, hl o h4⟩, h5⟩
      | done st => obtain ⟨h1, o, ⟨h3, h4⟩, h5⟩ := h; exact ⟨h1, o, ⟨h3, hl o h4⟩, h5⟩
      | failed e =>
        obtain ⟨h1, h2⟩ := h
        refine ⟨h1, ?_⟩
        rcases h2 with h2 | ⟨o, h2, ⟨h3, h4⟩, h5⟩
        · exact Or.inl h2
        · exact Or.inr ⟨o, h2, ⟨h3, hl o h4⟩, h5⟩
      | panicked => exact h.elim
  | close => cases hs; exact h
  | poll k as =>
    cases hs
    exact clientPoll_inv (A := A) (D := D) (as := as) (inp := s.inbox.take k) (tail := s.inbox.drop k)
      (by rw [List.take_append_drop]; exact h)

theorem clientRun_inv {A : Aead} {D : DH} {keys : Keys} {s s' : Side CPhase} {ops : List Op}
    (h : CInv D keys s.phase s.got s.inbox s.sent) (hs : s.run (clientPoll A D keys) ops = some s') :
    CInv D keys s'.phase s'.got s'.inbox s'.sent := by
  induction ops generalizing s with
  | nil => cases hs; exact h
  | cons op ops ih =>
    obtain ⟨t, h1, h2⟩ := Option.bind_eq_some_iff.1 hs
    exact ih (clientStep_inv h h1) h2

theorem clientInit_inv (D : DH) (keys : Keys) :
    CInv D keys (clientInit D keys).phase (clientInit D keys).got (clientInit D keys).inbox (clientInit D keys).sent := ⟨pub_ne D _, by simp [clientInit], rfl⟩

/-! ### The client with the bytes of a server -/

theorem pollPackage_toChunks_cut {closed : Bool} {acc inp : Bytes} (h : Incomplete (acc ++ inp)) :
    pollPackage closed acc (toChunks inp) = if closed then (.err .unexpectedEof, []) else (.pending (acc ++ inp), []) := by
  cases inp with
  | nil => simp [toChunks, pollPackage]
  | cons b bs =>
    simp only [toChunks, pollPackage, feed_incomplete h]
    rw [if_neg (by simp [h _ [] (List.append_nil _).symm])]

theorem pollPackage_toChunks_done {closed : Bool} {p acc y inp rest : Bytes} (hp : complete p = true) (hy : p = acc ++ y) (hne : y ≠ [])
    (h : acc ++ inp = p ++ rest) :
    ∃ cs, pollPackage closed acc (toChunks inp) = (.done (p.drop 4), cs) ∧ flat cs = rest := by
  have hfl : flat (toChunks inp) = inp := by cases inp <;> simp [toChunks, Chunk.bytes]
  have hlen : (toChunks inp).length ≤ 1 := by cases inp <;> simp [toChunks]
  rcases pollPackage_complete (closed := closed) (rest := rest) hp (toChunks inp) acc y hy hne (by rw [hfl]; exact h) with
    ⟨acc', y', cs', -, g2, g3, g4, g5⟩ | h
  · have : cs' = [] := List.length_eq_zero_iff.1 (by omega)
    subst this
    have g6 := congrArg List.length g5
    have := List.length_pos_iff.2 g4
    rw [g3] at g6
    rw [show flat [] = [] from rfl] at g6
    simp only [List.length_append, List.length_nil] at g6
    omega
  · exact h

/-- The stream of the client when the exchange is done. -/
def clientStream (fresh : Bytes) : CryptStream := { read := { dec := { key := fresh } }, write := { enc := { key := fresh } } }

def CHon (A : Aead) (D : DH) (keys : Keys) (fresh P : Bytes) (ph : CPhase) (got inbox : Bytes) : Prop :=
  let K := D.dh keys.secret P
  let pkg := secretPkg A K fresh
  match ph with
  | .sendPub _ => got = inbox
  | .flushPub => got = inbox
  | .recvPub acc => acc.length < 32 ∧ got = acc ++ inbox
  | .recvSecret st g => g = [] ∧ ∃ acc y, st = { read := { dec := { key := K }, fut := some (.reading acc) }, write := { enc := { key := K } } } ∧
      pkg = acc ++ y ∧ y ≠ [] ∧ got = P ++ acc ++ inbox
  | .done st => st = clientStream fresh ∧ got = P ++ pkg ++ inbox
  | .failed e => ∃ er, e = .io er
  | .panicked => False

section
variable {A : Aead} {D : DH} {keys : Keys} {fresh P : Bytes}

theorem cRecvSecret_hon {got tail more extra pre : Bytes} {acc y inp : Bytes} {closed : Bool} {rs : ReadStream} (hf : fresh.length = 32)
    (hrs : rs = { dec := { key := D.dh keys.secret P }, fut := some (.reading acc) } ∨ (acc = [] ∧ rs = { dec := { key := D.dh keys.secret P } }))
    (hy : secretPkg A (D.dh keys.secret P) fresh = acc ++ y) (hne : y ≠ []) (hg : got = P ++ acc ++ (inp ++ tail)) (hcl : closed = true → tail = [])
    (hm : got ++ more = P ++ secretPkg A (D.dh keys.secret P) fresh ++ extra) :
    let r := cRecvSecret A { read := rs, write := { enc := { key := D.dh keys.secret P } } } [] closed inp pre
    CHon A D keys fresh P r.phase got (r.rest ++ tail) ∧ (∀ e, r.phase = .failed e → closed = true ∧ more ≠ []) ∧
      r.sent = pre ∧ (more = [] → tail = [] → r.phase = .done (clientStream fresh)) := by
  have hcomp := complete_secretPkg (A := A) (K := D.dh keys.secret P) hf
  have hdec := decrypt_secretPkg (A := A) (K := D.dh keys.secret P) hf
  have hpoll : rs.pollRead A closed 32 (toChunks inp)
      = pollFutRead A closed { dec := { key := D.dh keys.secret P }, fut := some (.reading acc) } 32 (toChunks inp) := by
    rcases hrs with rfl | ⟨rfl, rfl⟩
    · simp only [ReadStream.pollRead]
    · simp only [ReadStream.pollRead, List.take_nil, List.length_nil, List.drop_nil, Nat.sub_zero, List.nil_append]
      rw [if_pos (by omega)]
  have hpk : acc ++ (inp ++ tail) ++ more = acc ++ y ++ extra := by
    rw [← hy]
    apply List.append_cancel_left (as := P)
    rw [hg] at hm
    simpa only [List.append_assoc] using hm
  have hcut : inp ++ (tail ++ more) = y ++ extra := by
    apply List.append_cancel_left (as := acc)
    rw [← List.append_assoc acc y, ← hpk]; simp
  simp only [cRecvSecret, List.length_nil, Nat.sub_zero, hpoll]
  have hcases : (∃ z, inp = y ++ z) ∨ ∃ z, z ≠ [] ∧ y = inp ++ z ∧ tail ++ more = z ++ extra := by
    rcases List.append_eq_append_iff.1 hcut with ⟨z, h1, h2⟩ | ⟨z, h1, h2⟩
    · by_cases hz : z = []
      · subst hz; exact Or.inl ⟨[], by simpa using h1.symm⟩
      · exact Or.inr ⟨z, hz, h1, h2⟩
    · exact Or.inl ⟨z, h1⟩
  rcases hcases with ⟨z, rfl⟩ | ⟨z, hz, hyz, htm⟩
  · obtain ⟨cs, h1, h2⟩ := pollPackage_toChunks_done (closed := closed) (rest := z) (inp := y ++ z) hcomp hy hne (by rw [hy]; simp)
    simp only [pollFutRead, h1, Decryptor.decrypt, hdec, List.nil_append]
    rw [if_pos (by omega)]
    have ht : fresh.take 32 = fresh := List.take_of_length_le (by omega)
    have hd : fresh.drop 32 = [] := List.drop_of_length_le (by omega)
    simp only [ht, hd]
    have h2 : (cs.map Chunk.bytes).flatten = z := h2
    refine ⟨⟨rfl, ?_⟩, by simp, by simp, fun _ _ => rfl⟩
    rw [h2, hg, hy]
    simp
  · have hzx : z ++ extra ≠ [] := by simp [hz]
    have hinc : Incomplete (acc ++ inp) := incomplete_of_cut hcomp (z := z) (by rw [hy, hyz]; simp) hz
    have := pollPackage_toChunks_cut (closed := closed) hinc
    cases closed with
    | true =>
      rw [if_pos rfl] at this
      simp only [pollFutRead, this]
      refine ⟨⟨_, rfl⟩, fun e _ => ?_, by simp, fun h1 h2 => absurd (by rw [← htm, h1, h2]; rfl) hzx⟩
      refine ⟨trivial, fun hm0 => hzx (by rw [← htm, hcl rfl, hm0]; rfl)⟩
    | false =>
      rw [if_neg (by simp)] at this
      simp only [pollFutRead, this]
      refine ⟨⟨rfl, acc ++ inp, z, rfl, by rw [hy, hyz]; simp, hz, by rw [hg]; simp⟩, by simp, by simp, fun h1 h2 => absurd (by rw [← htm, h1, h2]; rfl) hzx⟩

theorem cRecvPub_hon {got tail more extra pre : Bytes} {acc inp : Bytes} {closed : Bool} (hf : fresh.length = 32) (hP : P.length = 32)
    (hok : keys.refuses D P = false) (hl : acc.length < 32) (hg : got = acc ++ (inp ++ tail)) (hcl : closed = true → tail = [])
    (hm : got ++ more = P ++ secretPkg A (D.dh keys.secret P) fresh ++ extra) :
    let r := cRecvPub A D keys acc closed inp pre
    CHon A D keys fresh P r.phase got (r.rest ++ tail) ∧ (∀ e, r.phase = .failed e → closed = true ∧ more ≠ []) ∧
      r.sent = pre ∧ (more = [] → tail = [] → r.phase = .done (clientStream fresh)) := by
  have hpl := length_secretPkg (A := A) (K := D.dh keys.secret P) hf
  simp only [cRecvPub]
  rcases pollPub_spec (closed := closed) (inp := inp) hl with ⟨key, rest, g1, g2, g3⟩ | ⟨g1, g2⟩ | ⟨g1, g2⟩
  · simp only [g1]
    have hgot : got = key ++ (rest ++ tail) := by rw [hg, ← List.append_assoc, g3]; simp
    obtain ⟨hk, hr⟩ := List.append_inj (s₁ := key) (t₁ := rest ++ tail ++ more) (s₂ := P) (t₂ := secretPkg A (D.dh keys.secret P) fresh ++ extra)
      (by rw [← List.append_assoc P, ← hm, hgot]; simp) (g2.trans hP.symm)
    subst hk
    rw [if_neg (by simp [hok])]
    have hne : secretPkg A (D.dh keys.secret key) fresh ≠ [] := by intro h; rw [h] at hpl; simp at hpl
    exact cRecvSecret_hon (acc := []) (y := secretPkg A (D.dh keys.secret key) fresh) hf (Or.inr ⟨rfl, rfl⟩) rfl hne (by simpa using hgot) hcl hm
  · simp only [g1]
    have hmore : more ≠ [] := by
      intro h
      subst h
      have hlen := congrArg List.length hm
      have : pollPub closed acc inp ≠ .eof := by
        unfold pollPub
        rw [if_pos]
        · simp
        · rw [hg, hcl g2] at hlen
          simp only [List.length_append, List.length_nil, hP, hpl] at hlen
          omega
      exact this g1
    exact ⟨⟨_, rfl⟩, fun _ _ => ⟨g2, hmore⟩, by simp, fun h => absurd h hmore⟩
  · simp only [g1]
    refine ⟨⟨g2, by simp [hg]⟩, by simp, by simp, fun h1 h2 => ?_⟩
    have hlen := congrArg List.length hm
    rw [hg, h1, h2] at hlen
    simp only [List.length_append, List.length_nil, hP, hpl] at hlen g2
    omega

theorem cFlushPub_hon {got tail more extra pre : Bytes} {inp : Bytes} {closed : Bool} {as : List IoAns} (hf : fresh.length = 32) (hP : P.length = 32)
    (hok : keys.refuses D P = false) (hg : got = inp ++ tail) (hcl : closed = true → tail = [])
    (hm : got ++ more = P ++ secretPkg A (D.dh keys.secret P) fresh ++ extra) :
    let r := cFlushPub A D keys closed as inp pre
    CHon A D keys fresh P r.phase got (r.rest ++ tail) ∧ (∀ e, r.phase = .failed e → Bad as ∨ (closed = true ∧ more ≠ [])) ∧
      r.sent = pre ∧ (more = [] → tail = [] → (∃ n rest, as = .ready n :: rest) → r.phase = .done (clientStream fresh)) := by
  unfold cFlushPub
  split
  · exact ⟨hg, by simp, rfl, fun _ _ ⟨n, r, h⟩ => by cases h⟩
  · exact ⟨hg, by simp, rfl, fun _ _ ⟨n, r, h⟩ => by cases h⟩
  · rename_i e as
    exact ⟨⟨_, rfl⟩, fun _ _ => Or.inl (Or.inl ⟨e, by simp⟩), rfl, fun _ _ ⟨n, r, h⟩ => by cases h⟩
  · obtain ⟨h1, h2, h3, h4⟩ := cRecvPub_hon (A := A) (D := D) (keys := keys) (acc := []) (inp := inp) (pre := pre) hf hP hok (by simp) (by simpa using hg) hcl hm
    exact ⟨h1, fun e he => Or.inr (h2 e he), h3, fun a b _ => h4 a b⟩

theorem pollWriteAll_big {rem : Bytes} {n : Nat} {as : List IoAns} (hn : rem ≠ []) (h : rem.length ≤ n) :
    pollWriteAll rem (.ready n :: as) = (some (.ok ()), rem, [], as) := by
  cases rem with
  | nil => exact absurd rfl hn
  | cons b bs =>
    obtain ⟨m, rfl⟩ : ∃ m, n = m + 1 := ⟨n - 1, by simp at h; omega⟩
    rw [pollWriteAll]
    have hd : (b :: bs).drop (m + 1) = [] := List.drop_of_length_le h
    have ht : (b :: bs).take (m + 1) = b :: bs := List.take_of_length_le h
    rw [hd, ht]
    simp [pollWriteAll]

/-- One poll of the client, with the bytes of a server. The last part: a poll that finds all bytes there and a transport that takes
everything completes the exchange. -/
theorem clientPoll_hon {got tail more extra inp sent : Bytes} {closed : Bool} {ph : CPhase} {as : List IoAns} (hf : fresh.length = 32) (hP : P.length = 32)
    (hok : keys.refuses D P = false) (h : CHon A D keys fresh P ph got (inp ++ tail)) (hc : CInv D keys ph got (inp ++ tail) sent)
    (hcl : closed = true → tail = []) (hm : got ++ more = P ++ secretPkg A (D.dh keys.secret P) fresh ++ extra) :
    let r := clientPoll A D keys ph closed inp as
    CHon A D keys fresh P r.phase got (r.rest ++ tail) ∧ (∀ e, r.phase = .failed e → ph = .failed e ∨ Bad as ∨ (closed = true ∧ more ≠ [])) ∧
      (more = [] → tail = [] → (∃ n m rest, as = .ready n :: .ready m :: rest ∧ 32 ≤ n) → (∀ e, ph ≠ .failed e) →
        r.phase = .done (clientStream fresh)) := by
  cases ph with
  | sendPub rem =>
    simp only [clientPoll]
    obtain ⟨c1, c2, c3⟩ := hc
    have hrl : rem.length ≤ 32 := by
      have := congrArg List.length c2
      rw [D.pub_len, List.length_append] at this
      omega
    rcases hp : pollWriteAll rem as with ⟨r0, w, rem', as'⟩
    obtain ⟨g1, g2, g3, g4⟩ := pollWriteAll_spec hp
    rcases r0 with _ | (er | ⟨⟩)
    · refine ⟨h, by simp, ?_⟩
      rintro - - ⟨n, m, rest, rfl, hn⟩ -
      rw [pollWriteAll_big c1 (by omega)] at hp
      simp at hp
    · refine ⟨⟨_, rfl⟩, fun _ _ => Or.inr (Or.inl (g3 er rfl)), ?_⟩
      rintro - - ⟨n, m, rest, rfl, hn⟩ -
      rw [pollWriteAll_big c1 (by omega)] at hp
      simp at hp
    · obtain ⟨i1, i2, i3, i4⟩ := cFlushPub_hon (A := A) (D := D) (keys := keys) (as := as') (pre := w) hf hP hok h hcl hm
      refine ⟨i1, fun e he => ?_, ?_⟩
      · rcases i2 e he with i2 | i2
        · exact Or.inr (Or.inl (i2.mono g4))
        · exact Or.inr (Or.inr i2)
      · rintro h1 h2 ⟨n, m, rest, rfl, hn⟩ -
        rw [pollWriteAll_big c1 (by omega)] at hp
        simp only [Prod.mk.injEq, true_and] at hp
        exact i4 h1 h2 ⟨m, rest, hp.2.2.symm⟩
  | flushPub =>
    obtain ⟨i1, i2, i3, i4⟩ := cFlushPub_hon (A := A) (D := D) (keys := keys) (as := as) (pre := []) hf hP hok h hcl hm
    refine ⟨i1, fun e he => ?_, ?_⟩
    · rcases i2 e he with i2 | i2
      · exact Or.inr (Or.inl i2)
      · exact Or.inr (Or.inr i2)
    · rintro h1 h2 ⟨n, m, rest, rfl, hn⟩ -
      exact i4 h1 h2 ⟨_, _, rfl⟩
  | recvPub acc =>
    obtain ⟨i1, i2, i3, i4⟩ := cRecvPub_hon (A := A) (D := D) (keys := keys) (pre := []) hf hP hok h.1 h.2 hcl hm
    exact ⟨i1, fun e he => Or.inr (Or.inr (i2 e he)), fun h1 h2 _ _ => i4 h1 h2⟩
  | recvSecret st g =>
    obtain ⟨rfl, acc, y, rfl, h1, h2, h3⟩ := h
    obtain ⟨i1, i2, i3, i4⟩ := cRecvSecret_hon (A := A) (D := D) (keys := keys) (pre := []) hf (Or.inl rfl) h1 h2 h3 hcl hm
    exact ⟨i1, fun e he => Or.inr (Or.inr (i2 e he)), fun h1 h2 _ _ => i4 h1 h2⟩
  | done st =>
    obtain ⟨rfl, h1⟩ := h
    exact ⟨⟨rfl, h1⟩, by simp [clientPoll], fun _ _ _ _ => rfl⟩
  | failed e => exact ⟨h, fun e' he => Or.inl he, fun _ _ _ hn => absurd rfl (hn e)⟩
  | panicked => exact h.elim

theorem CHon.arrive {got inbox : Bytes} {ph : CPhase} (h : CHon A D keys fresh P ph got inbox) (bs : Bytes) : CHon A D keys fresh P ph (got ++ bs) (inbox ++ bs) := by
  cases ph with
  | sendPub rem => exact congrArg (· ++ bs) h
  | flushPub => exact congrArg (· ++ bs) h
  | recvPub acc => exact ⟨h.1, by rw [h.2]; simp⟩
  | recvSecret st g =>
    obtain ⟨h0, acc, y, h1, h2, h3, h4⟩ := h
    exact ⟨h0, acc, y, h1, h2, h3, by rw [h4]; simp⟩
  | done st =>
    obtain ⟨h0, h1⟩ := h
    exact ⟨h0, by simp [h1]⟩
  | failed e => exact h
  | panicked => exact h

theorem clientStep_hon {s s' : Side CPhase} {op : Op} (hf : fresh.length = 32) (hP : P.length = 32) (hok : keys.refuses D P = false)
    (h : CHon A D keys fresh P s.phase s.got s.inbox) (hc : CInv D keys s.phase s.got s.inbox s.sent)
    (hs : s.step (clientPoll A D keys) op = some s') (hm : ∃ more extra, s'.got ++ more = P ++ secretPkg A (D.dh keys.secret P) fresh ++ extra) :
    CHon A D keys fresh P s'.phase s'.got s'.inbox := by
  obtain ⟨more, extra, hm⟩ := hm
  cases op with
  | arrive bs =>
    simp only [Side.step] at hs
    split at hs
    · cases hs
    · cases hs; exact h.arrive bs
  | close => cases hs; exact h
  | poll k as =>
    cases hs
    refine (clientPoll_hon (A := A) (D := D) (as := as) (inp := s.inbox.take k) (tail := s.inbox.drop k) (sent := s.sent) (more := more) hf hP hok
      (by rw [List.take_append_drop]; exact h) (by rw [List.take_append_drop]; exact hc) ?_ hm).1
    intro hcl
    simp only [Bool.and_eq_true, decide_eq_true_eq] at hcl
    exact List.drop_of_length_le hcl.2

theorem got_mono {Φ : Type} {f : Φ → Bool → Bytes → List IoAns → Polled Φ} {s s' : Side Φ} {ops : List Op} (hs : s.run f ops = some s') :
    ∃ l, s'.got = s.got ++ l := by
  induction ops generalizing s with
  | nil => cases hs; exact ⟨[], by simp⟩
  | cons op ops ih =>
    obtain ⟨t, h1, h2⟩ := Option.bind_eq_some_iff.1 hs
    obtain ⟨l, hl⟩ := ih h2
    cases op with
    | arrive bs =>
      simp only [Side.step] at h1
      split at h1
      · cases h1
      · cases h1; exact ⟨bs ++ l, by rw [hl]; simp⟩
    | close => cases h1; exact ⟨l, hl⟩
    | poll k as => cases h1; exact ⟨l, hl⟩

theorem clientRun_hon {s s' : Side CPhase} {ops : List Op} (hf : fresh.length = 32) (hP : P.length = 32) (hok : keys.refuses D P = false)
    (h : CHon A D keys fresh P s.phase s.got s.inbox) (hc : CInv D keys s.phase s.got s.inbox s.sent)
    (hs : s.run (clientPoll A D keys) ops = some s') (hm : ∃ more extra, s'.got ++ more = P ++ secretPkg A (D.dh keys.secret P) fresh ++ extra) :
    CHon A D keys fresh P s'.phase s'.got s'.inbox := by
  induction ops generalizing s with
  | nil => cases hs; exact h
  | cons op ops ih =>
    obtain ⟨t, h1, h2⟩ := Option.bind_eq_some_iff.1 hs
    obtain ⟨l, hl⟩ := got_mono h2
    obtain ⟨more, extra, hm'⟩ := hm
    exact ih (clientStep_hon hf hP hok h hc h1 ⟨l ++ more, extra, by rw [← hm', hl]; simp⟩) (clientStep_inv hc h1) h2

theorem clientInit_hon : CHon A D keys fresh P (clientInit D keys).phase (clientInit D keys).got (clientInit D keys).inbox := rfl

end
end Bromine.Handshake

namespace Bromine.Handshake
open Bromine CryptIO CryptWire

/-! ### What the client has seen when it completes -/

section
variable {A : Aead} {D : DH} {keys : Keys}

/-- The package after the key `other` was decrypted under the key agreed with `other`. -/
def Seen (A : Aead) (D : DH) (keys : Keys) (got other : Bytes) : Prop :=
  ∃ pkg l plain, got = other ++ pkg ++ l ∧ complete pkg = true ∧ A.dec (D.dh keys.secret other) (nonceFromNumber 0) (pkg.drop 4) = some plain

def CAuth (A : Aead) (D : DH) (keys : Keys) (ph : CPhase) (got inbox : Bytes) : Prop :=
  match ph with
  | .sendPub _ => got = inbox
  | .flushPub => got = inbox
  | .recvPub acc => acc.length < 32 ∧ got = acc ++ inbox
  | .recvSecret st g => ∃ other, other.length = 32 ∧ keys.refuses D other = false ∧ ((g = [] ∧ ∃ acc, st.read = { dec := { key := D.dh keys.secret other }, fut := some (.reading acc) } ∧
      Incomplete acc ∧ got = other ++ acc ++ inbox) ∨ Seen A D keys got other)
  | .done _ => ∃ other, other.length = 32 ∧ keys.refuses D other = false ∧ Seen A D keys got other
  | .failed _ => True
  | .panicked => True

theorem pollPackage_toChunks {closed : Bool} {acc inp : Bytes} (h : Incomplete acc) :
    (Incomplete (acc ++ inp) ∧ (pollPackage closed acc (toChunks inp) = (.err .unexpectedEof, []) ∨
      pollPackage closed acc (toChunks inp) = (.pending (acc ++ inp), []))) ∨
    ∃ p rest cs, complete p = true ∧ acc ++ inp = p ++ rest ∧ pollPackage closed acc (toChunks inp) = (.done (p.drop 4), cs) ∧ flat cs = rest := by
  rcases complete_or (acc ++ inp) with ⟨p, rest, h1, h2⟩ | h1
  · right
    have : ∃ y, p = acc ++ y ∧ y ≠ [] := by
      rcases List.append_eq_append_iff.1 h1 with ⟨z, g1, g2⟩ | ⟨z, g1, g2⟩
      · refine ⟨z, g1, fun hz => ?_⟩
        subst hz
        have := h p [] (by rw [g1]; simp)
        rw [h2] at this
        cases this
      · have := h p z g1
        rw [h2] at this
        cases this
    obtain ⟨y, g1, g2⟩ := this
    obtain ⟨cs, g3, g4⟩ := pollPackage_toChunks_done (closed := closed) (rest := rest) h2 g1 g2 h1
    exact ⟨p, rest, cs, h2, h1, g3, g4⟩
  · left
    refine ⟨h1, ?_⟩
    rw [pollPackage_toChunks_cut h1]
    cases closed <;> simp

theorem incomplete_nil : Incomplete [] := by
  intro p rest h
  have := (List.append_eq_nil_iff.1 h.symm).1
  subst this
  rfl

theorem cRecvSecret_auth {got tail pre : Bytes} {st : CryptStream} {g inp other : Bytes} {closed : Bool} (ho : other.length = 32)
    (hr : keys.refuses D other = false)
    (h : (g = [] ∧ ∃ acc, (st.read = { dec := { key := D.dh keys.secret other }, fut := some (.reading acc) } ∨
        (acc = [] ∧ st.read = { dec := { key := D.dh keys.secret other } })) ∧ Incomplete acc ∧ got = other ++ acc ++ (inp ++ tail)) ∨ Seen A D keys got other) :
    let r := cRecvSecret A st g closed inp pre
    CAuth A D keys r.phase got (r.rest ++ tail) := by
  rcases h with ⟨rfl, acc, h1, h2, h3⟩ | h
  · have hpoll : st.read.pollRead A closed 32 (toChunks inp)
        = pollFutRead A closed { dec := { key := D.dh keys.secret other }, fut := some (.reading acc) } 32 (toChunks inp) := by
      rcases h1 with h1 | ⟨rfl, h1⟩
      · rw [h1]; simp only [ReadStream.pollRead]
      · rw [h1]
        simp only [ReadStream.pollRead, List.take_nil, List.length_nil, List.drop_nil, Nat.sub_zero, List.nil_append]
        rw [if_pos (by omega)]
    simp only [cRecvSecret, List.length_nil, Nat.sub_zero, hpoll]
    rcases pollPackage_toChunks (closed := closed) (inp := inp) h2 with ⟨g1, g2 | g2⟩ | ⟨p, rest, cs, g1, g2, g3, g4⟩
    · simp only [pollFutRead, g2]
      trivial
    · simp only [pollFutRead, g2]
      exact ⟨other, ho, hr, Or.inl ⟨rfl, acc ++ inp, rfl, g1, by rw [h3]; simp⟩⟩
    · simp only [pollFutRead, g3, Decryptor.decrypt]
      cases hd : A.dec (D.dh keys.secret other) (nonceFromNumber 0) (p.drop 4) with
      | none => simp only; trivial
      | some plain =>
        have hseen : Seen A D keys got other := by
          refine ⟨p, rest ++ tail, plain, ?_, g1, hd⟩
          rw [h3]
          have : acc ++ (inp ++ tail) = p ++ (rest ++ tail) := by rw [← List.append_assoc, g2]; simp
          rw [List.append_assoc, this, List.append_assoc]
        simp only
        split
        · exact ⟨other, ho, hr, Or.inr hseen⟩
        · trivial
        · trivial
        · exact ⟨other, ho, hr, hseen⟩
  · simp only [cRecvSecret]
    split
    · exact ⟨other, ho, hr, Or.inr h⟩
    · trivial
    · trivial
    · exact ⟨other, ho, hr, h⟩

theorem cRecvPub_auth {got tail pre : Bytes} {acc inp : Bytes} {closed : Bool} (hl : acc.length < 32) (hg : got = acc ++ (inp ++ tail)) :
    let r := cRecvPub A D keys acc closed inp pre
    CAuth A D keys r.phase got (r.rest ++ tail) := by
  simp only [cRecvPub]
  rcases pollPub_spec (closed := closed) (inp := inp) hl with ⟨key, rest, g1, g2, g3⟩ | ⟨g1, g2⟩ | ⟨g1, g2⟩
  · simp only [g1]
    have hgot : got = key ++ (rest ++ tail) := by rw [hg, ← List.append_assoc, g3]; simp
    split
    · trivial
    · rename_i hr
      exact cRecvSecret_auth g2 (by simpa using hr) (Or.inl ⟨rfl, [], Or.inr ⟨rfl, rfl⟩, incomplete_nil, by simpa using hgot⟩)
  · simp only [g1]; trivial
  · simp only [g1]
    exact ⟨g2, by simp [hg]⟩

theorem cFlushPub_auth {got tail pre : Bytes} {inp : Bytes} {closed : Bool} {as : List IoAns} (hg : got = inp ++ tail) :
    let r := cFlushPub A D keys closed as inp pre
    CAuth A D keys r.phase got (r.rest ++ tail) := by
  unfold cFlushPub
  split
  · exact hg
  · exact hg
  · trivial
  · exact cRecvPub_auth (by simp) (by simpa using hg)

theorem clientPoll_auth {got tail inp : Bytes} {closed : Bool} {ph : CPhase} {as : List IoAns} (h : CAuth A D keys ph got (inp ++ tail)) :
    let r := clientPoll A D keys ph closed inp as
    CAuth A D keys r.phase got (r.rest ++ tail) := by
  cases ph with
  | sendPub rem =>
    simp only [clientPoll]
    rcases hp : pollWriteAll rem as with ⟨r0, w, rem', as'⟩
    rcases r0 with _ | (er | ⟨⟩)
    · exact h
    · trivial
    · exact cFlushPub_auth h
  | flushPub => exact cFlushPub_auth h
  | recvPub acc => exact cRecvPub_auth h.1 h.2
  | recvSecret st g =>
    obtain ⟨o, h1, h2, h3⟩ := h
    refine cRecvSecret_auth h1 h2 ?_
    rcases h3 with ⟨a, acc, b, c⟩ | h3
    · exact Or.inl ⟨a, acc, Or.inl b, c⟩
    · exact Or.inr h3
  | done st => simpa [clientPoll] using h
  | failed e => trivial
  | panicked => trivial

theorem CAuth.arrive {got inbox : Bytes} {ph : CPhase} (h : CAuth A D keys ph got inbox) (bs : Bytes) : CAuth A D keys ph (got ++ bs) (inbox ++ bs) := by
  have hs : ∀ other, Seen A D keys got other → Seen A D keys (got ++ bs) other :=
    fun o ⟨p, l, x, h1, h2⟩ => ⟨p, l ++ bs, x, by rw [h1]; simp, h2⟩
  cases ph with
  | sendPub rem => exact congrArg (· ++ bs) h
  | flushPub => exact congrArg (· ++ bs) h
  | recvPub acc => exact ⟨h.1, by rw [h.2]; simp⟩
  | recvSecret st g =>
    obtain ⟨o, h1, h2, ⟨a, acc, b, c, d⟩ | h3⟩ := h
    · exact ⟨o, h1, h2, Or.inl ⟨a, acc, b, c, by rw [d]; simp⟩⟩
    · exact ⟨o, h1, h2, Or.inr (hs o h3)⟩
  | done st => obtain ⟨o, h1, h2, h3⟩ := h; exact ⟨o, h1, h2, hs o h3⟩
  | failed e => trivial
  | panicked => trivial

theorem clientRun_auth {s s' : Side CPhase} {ops : List Op} (h : CAuth A D keys s.phase s.got s.inbox)
    (hs : s.run (clientPoll A D keys) ops = some s') : CAuth A D keys s'.phase s'.got s'.inbox := by
  induction ops generalizing s with
  | nil => cases hs; exact h
  | cons op ops ih =>
    obtain ⟨t, h1, h2⟩ := Option.bind_eq_some_iff.1 hs
    refine ih ?_ h2
    cases op with
    | arrive bs =>
      simp only [Side.step] at h1
      split at h1
      · cases h1
      · cases h1; exact h.arrive bs
    | close => cases h1; exact h
    | poll k as =>
      cases h1
      exact clientPoll_auth (A := A) (D := D) (as := as) (inp := s.inbox.take k) (tail := s.inbox.drop k)
        (by rw [List.take_append_drop]; exact h)

theorem clientInit_auth : CAuth A D keys (clientInit D keys).phase (clientInit D keys).got (clientInit D keys).inbox := rfl

end
end Bromine.Handshake
