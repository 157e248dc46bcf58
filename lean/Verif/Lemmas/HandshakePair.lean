import Verif.Lemmas.HandshakeClient
/-
Invariants of the key exchange: both sides together, and progress.
-/
namespace Bromine.Handshake
open Bromine CryptIO CryptWire

section
variable {A : Aead} {D : DH} {sk ck : Keys} {fresh : Bytes}

theorem CInv.sent_prefix {keys : Keys} {ph : CPhase} {got inbox sent : Bytes} (h : CInv D keys ph got inbox sent) :
    ∃ rest, sent ++ rest = D.pub keys.secret := by
  cases ph with
  | sendPub rem => exact ⟨rem, h.2.1⟩
  | flushPub => exact ⟨[], by simpa using h.1⟩
  | recvPub acc => exact ⟨[], by simpa using h.2.2⟩
  | recvSecret st g => exact ⟨[], by simpa using h.1⟩
  | done st => exact ⟨[], by simpa using h.1⟩
  | failed e => exact h.1
  | panicked => exact h.elim

theorem accepted_is {keys : Keys} {got inbox other P : Bytes} (h : Accepted D keys got inbox other) (hP : P.length = 32)
    (hg : ∃ l l', got ++ l = P ++ l') : other = P := by
  obtain ⟨h1, h2, h3⟩ := h
  obtain ⟨l, l', hl⟩ := hg
  rw [h3, List.append_assoc] at hl
  exact (List.append_inj hl (h1.trans hP.symm)).1

/-- What the server sends to a client is the beginning of what it sends in an undisturbed exchange. -/
theorem SInv.sent_prefix {ph : SPhase} {got inbox sent : Bytes} (h : SInv A D sk fresh ph got inbox sent) (hg : ∃ l l', got ++ l = D.pub ck.secret ++ l') :
    ∃ more, sent ++ more = D.pub sk.secret ++ secretPkg A (D.dh ck.secret (D.pub sk.secret)) fresh := by
  have hk : ∀ other, Accepted D sk got inbox other → D.dh sk.secret other = D.dh ck.secret (D.pub sk.secret) := by
    intro other ho
    rw [accepted_is ho (D.pub_len _) hg, D.comm]
  cases ph with
  | recvPub acc => exact ⟨_, by rw [h.2.2]; rfl⟩
  | sendPub other rem => exact ⟨rem ++ secretPkg A (D.dh ck.secret (D.pub sk.secret)) fresh, by rw [← List.append_assoc, h.2.2]⟩
  | flushPub other => exact ⟨_, by rw [h.2]⟩
  | writeSecret st => exact h.elim
  | flushSecret st => obtain ⟨o, rem, h1, h2, h3⟩ := h; exact ⟨rem, by rw [h3, hk o h1]⟩
  | done st => obtain ⟨o, h1, h2, h3⟩ := h; exact ⟨[], by rw [h3, hk o h1, List.append_nil]⟩
  | failed e =>
    rcases h with ⟨k, h1, h2, h3, h4, h5⟩ | ⟨er, h1, h2 | ⟨o, r, h2, h3⟩⟩
    · exact ⟨_, by rw [h5]; rfl⟩
    · exact ⟨_, by rw [h2]; rfl⟩
    · exact ⟨r, by rw [h3, hk o h2]⟩
  | panicked => exact h.elim

structure PInv (A : Aead) (D : DH) (sk ck : Keys) (fresh : Bytes) (p : Pair) : Prop where
  server : SInv A D sk fresh p.server.phase p.server.got p.server.inbox p.server.sent
  client : CInv D ck p.client.phase p.client.got p.client.inbox p.client.sent
  honest : ck.refuses D (D.pub sk.secret) = false → CHon A D ck fresh (D.pub sk.secret) p.client.phase p.client.got p.client.inbox
  c2s : p.server.got = p.client.sent ++ p.clientMore
  s2c : p.client.got = p.server.sent ++ p.serverMore
  cmore : p.clientMore ≠ [] → ∃ st, p.client.phase = .done st
  smore : p.serverMore ≠ [] → ∃ st, p.server.phase = .done st

theorem PInv.init : PInv A D sk ck fresh (Pair.init D ck) where
  server := serverInit_inv A D sk fresh
  client := clientInit_inv D ck
  honest := fun _ => clientInit_hon
  c2s := rfl
  s2c := rfl
  cmore := fun h => absurd rfl h
  smore := fun h => absurd rfl h

theorem c2s_prefix {got more : Bytes} {ph : CPhase} {cgot inbox sent : Bytes} (h : CInv D ck ph cgot inbox sent) (hg : got = sent ++ more)
    (hm : more ≠ [] → ∃ st, ph = .done st) : ∃ l l', got ++ l = D.pub ck.secret ++ l' := by
  by_cases h0 : more = []
  · subst h0
    obtain ⟨r, hr⟩ := h.sent_prefix
    exact ⟨r, [], by rw [hg, List.append_nil, List.append_nil, hr]⟩
  · obtain ⟨st, hst⟩ := hm h0
    subst hst
    exact ⟨[], more, by rw [hg, h.1, List.append_nil]⟩

theorem PInv.server_got {p : Pair} (h : PInv A D sk ck fresh p) : ∃ l l', p.server.got ++ l = D.pub ck.secret ++ l' :=
  c2s_prefix h.client h.c2s h.cmore

theorem s2c_prefix {cgot more : Bytes} {ph : SPhase} {got inbox sent : Bytes} (h : SInv A D sk fresh ph got inbox sent)
    (hg : ∃ l l', got ++ l = D.pub ck.secret ++ l') (hc : cgot = sent ++ more) (hm : more ≠ [] → ∃ st, ph = .done st) :
    ∃ l extra, cgot ++ l = D.pub sk.secret ++ secretPkg A (D.dh ck.secret (D.pub sk.secret)) fresh ++ extra := by
  by_cases h0 : more = []
  · subst h0
    obtain ⟨r, hr⟩ := h.sent_prefix hg
    exact ⟨r, [], by rw [hc, List.append_nil, List.append_nil, hr]⟩
  · obtain ⟨st, hst⟩ := hm h0
    subst hst
    obtain ⟨o, h1, h2, h3⟩ := h
    refine ⟨[], more, ?_⟩
    rw [hc, h3, accepted_is h1 (D.pub_len _) hg, D.comm, List.append_nil]

theorem PInv.more {p : Pair} (h : PInv A D sk ck fresh p) :
    ∃ more extra, p.client.got ++ more = D.pub sk.secret ++ secretPkg A (D.dh ck.secret (D.pub sk.secret)) fresh ++ extra :=
  s2c_prefix h.server h.server_got h.s2c h.smore

theorem Side.poll_facts {Φ : Type} {f : Φ → Bool → Bytes → List IoAns → Polled Φ} {s s' : Side Φ} {k : Nat} {as : List IoAns}
    (h : s.step f (.poll k as) = some s') : s'.got = s.got ∧ s'.closed = s.closed ∧ ∃ w, s'.sent = s.sent ++ w := by
  cases h
  exact ⟨rfl, rfl, _, rfl⟩

theorem Side.arrive_facts {Φ : Type} {f : Φ → Bool → Bytes → List IoAns → Polled Φ} {s s' : Side Φ} {bs : Bytes}
    (h : s.step f (.arrive bs) = some s') : s' = { s with inbox := s.inbox ++ bs, got := s.got ++ bs } := by
  simp only [Side.step] at h
  split at h
  · cases h
  · cases h; rfl

theorem PInv.step {p p' : Pair} {op : PairOp} (hf : fresh.length = 32) (h : PInv A D sk ck fresh p) (hs : p.step A D sk ck fresh op = some p') :
    PInv A D sk ck fresh p' := by
  have hP : (D.pub sk.secret).length = 32 := D.pub_len _
  cases op with
  | server k as =>
    simp only [Pair.step, Option.bind_eq_bind] at hs
    obtain ⟨s, h1, h2⟩ := Option.bind_eq_some_iff.1 hs
    obtain ⟨g1, g2, w, g3⟩ := Side.poll_facts h1
    have hsi := serverStep_inv hf h.server h1
    have hsm : p.serverMore ≠ [] → (∃ st, s.phase = .done st) ∧ w = [] := by
      intro hm
      obtain ⟨st, hst⟩ := h.smore hm
      cases h1
      simp only [hst, serverPoll, List.append_cancel_left_eq] at g3 ⊢
      exact ⟨⟨_, rfl⟩, g3.symm⟩
    have hw : s.sent.drop p.server.sent.length = w := by rw [g3]; simp
    rw [hw] at h2
    split at h2
    · rename_i hw0
      subst hw0
      rw [List.append_nil] at g3
      cases h2
      exact ⟨hsi, h.client, h.honest, g1.trans h.c2s, by rw [g3]; exact h.s2c, h.cmore, fun hm => (hsm hm).1⟩
    · rename_i hw0
      obtain ⟨c, h3, h4⟩ := Option.bind_eq_some_iff.1 h2
      cases h4
      have hci := clientStep_inv h.client h3
      have hcf := Side.arrive_facts h3
      have hcs : c.sent = p.client.sent := by rw [hcf]
      have hm0 : p.serverMore = [] := Classical.byContradiction fun hm => hw0 (hsm hm).2
      have hcg : c.got = s.sent ++ p.serverMore := by rw [hcf, g3, h.s2c, hm0]; simp
      refine ⟨hsi, hci, fun hr => ?_, by rw [hcs, g1]; exact h.c2s, hcg, fun hm => by rw [hcf]; exact h.cmore hm, fun hm => absurd hm0 hm⟩
      exact clientStep_hon hf hP hr (h.honest hr) h.client h3 (s2c_prefix hsi (by rw [g1]; exact h.server_got) hcg (fun hm => absurd hm0 hm))
  | client k as =>
    simp only [Pair.step, Option.bind_eq_bind] at hs
    obtain ⟨c, h1, h2⟩ := Option.bind_eq_some_iff.1 hs
    obtain ⟨g1, g2, w, g3⟩ := Side.poll_facts h1
    have hci := clientStep_inv h.client h1
    have hch : ck.refuses D (D.pub sk.secret) = false → CHon A D ck fresh (D.pub sk.secret) c.phase c.got c.inbox := fun hr =>
      clientStep_hon hf hP hr (h.honest hr) h.client h1 (by rw [g1]; exact h.more)
    have hcm : p.clientMore ≠ [] → (∃ st, c.phase = .done st) ∧ w = [] := by
      intro hm
      obtain ⟨st, hst⟩ := h.cmore hm
      cases h1
      simp only [hst, clientPoll, List.append_cancel_left_eq] at g3 ⊢
      exact ⟨⟨_, rfl⟩, g3.symm⟩
    have hw : c.sent.drop p.client.sent.length = w := by rw [g3]; simp
    rw [hw] at h2
    split at h2
    · rename_i hw0
      subst hw0
      rw [List.append_nil] at g3
      cases h2
      exact ⟨h.server, hci, hch, by rw [g3]; exact h.c2s, g1.trans h.s2c, fun hm => (hcm hm).1, h.smore⟩
    · rename_i hw0
      obtain ⟨s, h3, h4⟩ := Option.bind_eq_some_iff.1 h2
      cases h4
      have hsf := Side.arrive_facts h3
      have hm0 : p.clientMore = [] := Classical.byContradiction fun hm => hw0 (hcm hm).2
      exact ⟨serverStep_inv hf h.server h3, hci, hch, by rw [hsf, g3, h.c2s, hm0]; simp, by rw [g1, hsf]; exact h.s2c, fun hm => absurd hm0 hm,
        fun hm => by rw [hsf]; exact h.smore hm⟩
  | closeServer =>
    simp only [Pair.step, Side.step, Option.bind_eq_bind, Option.bind_some] at hs
    cases hs
    exact ⟨h.server, h.client, h.honest, h.c2s, h.s2c, h.cmore, h.smore⟩
  | closeClient =>
    simp only [Pair.step, Side.step, Option.bind_eq_bind, Option.bind_some] at hs
    cases hs
    exact ⟨h.server, h.client, h.honest, h.c2s, h.s2c, h.cmore, h.smore⟩
  | moreServer bs =>
    simp only [Pair.step] at hs
    split at hs
    · rename_i st hst
      obtain ⟨c, h3, h4⟩ := Option.map_eq_some_iff.1 hs
      cases h4
      have hcf := Side.arrive_facts h3
      have hcg : c.got = p.server.sent ++ (p.serverMore ++ bs) := by rw [hcf, h.s2c]; simp
      refine ⟨h.server, clientStep_inv h.client h3, fun hr => ?_, by rw [hcf]; exact h.c2s, hcg, fun hm => by rw [hcf]; exact h.cmore hm, fun _ => ⟨st, hst⟩⟩
      exact clientStep_hon hf hP hr (h.honest hr) h.client h3 (s2c_prefix h.server h.server_got hcg (fun _ => ⟨st, hst⟩))
    · cases hs
  | moreClient bs =>
    simp only [Pair.step] at hs
    split at hs
    · rename_i st hst
      obtain ⟨s, h3, h4⟩ := Option.map_eq_some_iff.1 hs
      cases h4
      have hsf := Side.arrive_facts h3
      exact ⟨serverStep_inv hf h.server h3, h.client, h.honest, by rw [hsf, h.c2s]; simp, by rw [hsf]; exact h.s2c, fun _ => ⟨st, hst⟩,
        fun hm => by rw [hsf]; exact h.smore hm⟩
    · cases hs

theorem PInv.run {p p' : Pair} {ops : List PairOp} (hf : fresh.length = 32) (h : PInv A D sk ck fresh p)
    (hs : p.run A D sk ck fresh ops = some p') : PInv A D sk ck fresh p' := by
  induction ops generalizing p with
  | nil => cases hs; exact h
  | cons op ops ih =>
    obtain ⟨t, h1, h2⟩ := Option.bind_eq_some_iff.1 hs
    exact ih (h.step hf h1) h2

/-! ### Progress of the server -/

/-- A transport that takes everything. -/
def ready4 (n : Nat) : List IoAns := [.ready n, .ready n, .ready n, .ready n]

theorem flushWrite_done {ws : WriteStream} {rem : Bytes} {n : Nat} {as : List IoAns} (hne : rem ≠ []) (hl : rem.length ≤ n) :
    (pollFlushWrite ws rem (.ready n :: .ready n :: as)).poll = .ready (.ok ()) := by
  simp only [pollFlushWrite, pollWriteAll_big hne hl, pollFutFlush]

theorem sFlushSecret_done {st : CryptStream} {as : List IoAns} {rest pre : Bytes} (h : (st.write.pollFlush A as).poll = .ready (.ok ())) :
    ∃ st', (sFlushSecret A fresh st as rest pre).phase = .done st' := by
  simp only [sFlushSecret, h]
  exact ⟨_, rfl⟩

theorem sWriteSecret_done {K rest pre : Bytes} {n : Nat} {as : List IoAns} (hf : fresh.length = 32) (hn : 52 ≤ n) :
    ∃ st', (sWriteSecret A fresh (CryptStream.new K) (.ready n :: .ready n :: as) rest pre).phase = .done st' := by
  obtain ⟨c, he, -, hc, hcl⟩ := encrypt_fresh (A := A) (K := K) hf
  simp only [sWriteSecret, CryptStream.new]
  rw [pollWrite_small (by omega)]
  apply sFlushSecret_done
  have ht : fresh.take u32Max = fresh := List.take_of_length_le (by unfold u32Max; omega)
  simp only [WriteStream.pollFlush, ht, Bool.and_self, if_true, he]
  rw [if_pos (by omega)]
  have hl := length_secretPkg (A := A) (K := K) hf
  rw [← hc] at hl
  exact flushWrite_done (by intro h; rw [h] at hl; simp at hl) (by omega)

theorem sFlushPub_done {other rest pre : Bytes} {n : Nat} {as : List IoAns} (hf : fresh.length = 32) (hn : 52 ≤ n) :
    ∃ st', (sFlushPub A D sk fresh other (.ready n :: .ready n :: .ready n :: as) rest pre).phase = .done st' :=
  sWriteSecret_done hf hn

theorem sSendPub_done {other rest rem : Bytes} {n : Nat} (hf : fresh.length = 32) (hn : 52 ≤ n) (hne : rem ≠ []) (hl : rem.length ≤ 32) :
    ∃ st', (sSendPub A D sk fresh other rem (ready4 n) rest).phase = .done st' := by
  simp only [sSendPub, ready4, pollWriteAll_big hne (show rem.length ≤ n by omega)]
  exact sFlushPub_done hf hn

/-- A poll that finds the key of the peer and a transport that takes everything completes the exchange on the server. -/
theorem serverPoll_done {ph : SPhase} {closed : Bool} {got inp sent key l : Bytes} {n : Nat} (hf : fresh.length = 32) (hn : 84 ≤ n)
    (h : SInv A D sk fresh ph got inp sent) (hk : got = key ++ l) (hkl : key.length = 32) (hr : sk.refuses D key = false) (hnf : ∀ e, ph ≠ .failed e) :
    ∃ st, (serverPoll A D sk fresh ph closed inp (ready4 n)).phase = .done st := by
  cases ph with
  | recvPub acc =>
    obtain ⟨h1, h2, h3⟩ := h
    have hpp : ∃ rest, pollPub closed acc inp = .got key rest := by
      rcases pollPub_spec (closed := closed) (inp := inp) h1 with ⟨key', rest, g1, g2, g3⟩ | ⟨g1, g2⟩ | ⟨g1, g2⟩
      · obtain ⟨rfl, -⟩ := List.append_inj (s₁ := key') (t₁ := rest) (s₂ := key) (t₂ := l) (by rw [← g3, ← h2, hk]) (g2.trans hkl.symm)
        exact ⟨rest, g1⟩
      · exfalso
        unfold pollPub at g1
        rw [if_pos] at g1
        · cases g1
        · rw [← List.length_append, ← h2, hk, List.length_append]; omega
      · exfalso
        rw [← h2, hk, List.length_append] at g2
        omega
    obtain ⟨rest, hpp⟩ := hpp
    simp only [serverPoll, hpp]
    rw [if_neg (by simp [hr])]
    exact sSendPub_done hf (by omega) (pub_ne D _) (by rw [D.pub_len]; omega)
  | sendPub other rem =>
    obtain ⟨h1, h2, h3⟩ := h
    have := congrArg List.length h3
    rw [D.pub_len, List.length_append] at this
    exact sSendPub_done hf (by omega) h2 (by omega)
  | flushPub other => exact sFlushPub_done hf (by omega)
  | writeSecret st => exact h.elim
  | flushSecret st =>
    obtain ⟨other, rem, h1, ⟨f, rfl, hrem⟩, h3⟩ := h
    apply sFlushSecret_done
    cases f with
    | writing rem' =>
      simp only [remOf] at hrem
      subst hrem
      have hl := congrArg List.length h3
      rw [List.length_append, List.length_append, D.pub_len, length_secretPkg hf] at hl
      simp only [WriteStream.pollFlush, ready4]
      by_cases hr0 : rem' = []
      · subst hr0
        simp [pollFlushWrite, pollWriteAll, pollFutFlush]
      · exact flushWrite_done hr0 (by omega)
    | flushing => simp [WriteStream.pollFlush, ready4, pollFutFlush]
  | done st => exact ⟨st, rfl⟩
  | failed e => exact absurd rfl (hnf e)
  | panicked => exact h.elim

/-- A poll of the client with a transport that takes everything sends the rest of its public key. -/
theorem clientPoll_sends {ph : CPhase} {closed : Bool} {got inbox sent inp : Bytes} {n : Nat} (hn : 84 ≤ n) (h : CInv D ck ph got inbox sent)
    (hnf : ∀ e, ph ≠ .failed e) : sent ++ (clientPoll A D ck ph closed inp (ready4 n)).sent = D.pub ck.secret := by
  have hrs : ∀ st g inp pre, (cRecvSecret A st g closed inp pre).sent = pre := by
    intro st g inp pre
    simp only [cRecvSecret]
    split <;> rfl
  have hrp : ∀ acc inp pre, (cRecvPub A D ck acc closed inp pre).sent = pre := by
    intro acc inp pre
    simp only [cRecvPub]
    split
    · rfl
    · rfl
    · split
      · rfl
      · exact hrs _ _ _ _
  cases ph with
  | sendPub rem =>
    obtain ⟨h1, h2, h3⟩ := h
    have hl := congrArg List.length h2
    rw [D.pub_len, List.length_append] at hl
    simp only [clientPoll, ready4, pollWriteAll_big h1 (show rem.length ≤ n by omega), cFlushPub, hrp]
    exact h2
  | flushPub => simpa [clientPoll, ready4, cFlushPub, hrp] using h.1
  | recvPub acc => simpa [clientPoll, hrp] using h.2.2
  | recvSecret st g => simpa [clientPoll, hrs] using h.1
  | done st => simpa [clientPoll] using h.1
  | failed e => exact absurd rfl (hnf e)
  | panicked => exact h.elim

end
end Bromine.Handshake
