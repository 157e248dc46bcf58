import Verif.Spec.HandshakeErr
import Verif.Lemmas.HandshakePair
import Verif.Lemmas.CryptBytes
/-
Why key exchanges fail.
-/
namespace Bromine.Handshake
open Bromine CryptIO CryptWire Spec CryptBytes

theorem ErrorIn.mono {as as' : List IoAns} {x : IoErr} (h : ErrorIn as x) (hs : ∀ a ∈ as, a ∈ as') : ErrorIn as' x := by
  rcases h with h | ⟨h1, h2⟩
  · exact Or.inl (hs _ h)
  · exact Or.inr ⟨h1, hs _ h2⟩

theorem pollWriteAll_error {rem : Bytes} {as : List IoAns} {x : IoErr} {w rem' : Bytes} {as' : List IoAns}
    (h : pollWriteAll rem as = (some (.error x), w, rem', as')) : ErrorIn as x := by
  fun_induction pollWriteAll rem as generalizing w rem' as' with
  | case1 => cases h
  | case2 => cases h
  | case3 => cases h
  | case4 => cases h; exact Or.inl (by simp)
  | case5 => cases h; exact Or.inr ⟨rfl, by simp⟩
  | case6 b bs n as r0 w0 rem0 as0 heq ih =>
    cases h
    exact ErrorIn.mono (ih heq) (by simp +contextual)

theorem pollFutFlush_error {ws : WriteStream} {as : List IoAns} {x : IoErr} (h : (pollFutFlush ws as).poll = .ready (.error x)) : ErrorIn as x := by
  unfold pollFutFlush at h
  split at h
  · cases h
  · cases h
  · cases h; exact Or.inl (by simp)
  · cases h

theorem pollFlushWrite_error {ws : WriteStream} {rem : Bytes} {as : List IoAns} {x : IoErr} (h : (pollFlushWrite ws rem as).poll = .ready (.error x)) : ErrorIn as x := by
  unfold pollFlushWrite at h
  rcases hp : pollWriteAll rem as with ⟨r0, w, rem', as'⟩
  rw [hp] at h
  rcases r0 with _ | (er | ⟨⟩)
  · cases h
  · cases h; exact pollWriteAll_error hp
  · exact ErrorIn.mono (pollFutFlush_error (as := as') h) (pollWriteAll_spec hp).2.2.2

section
variable {A : Aead} {D : DH} {keys : Keys} {fresh : Bytes}

theorem sFlushSecret_error {K rem rest pre : Bytes} {st : CryptStream} {as : List IoAns} {e : Error} (hst : Flushing K fresh st rem)
    (h : (sFlushSecret A fresh st as rest pre).phase = .failed e) : ∃ x, e = .io x ∧ ErrorIn as x := by
  obtain ⟨f, rfl, -⟩ := hst
  simp only [sFlushSecret] at h
  split at h
  · cases h
  · cases h
  · rename_i x hp
    cases h
    refine ⟨x, rfl, ?_⟩
    cases f with
    | writing r => exact pollFlushWrite_error hp
    | flushing => exact pollFutFlush_error hp
  · cases h

theorem sWriteSecret_error {K rest pre : Bytes} {as : List IoAns} {e : Error} (hf : fresh.length = 32)
    (h : (sWriteSecret A fresh (CryptStream.new K) as rest pre).phase = .failed e) : ∃ x, e = .io x ∧ ErrorIn as x := by
  obtain ⟨c, he, -, hc, -⟩ := encrypt_fresh (A := A) (K := K) hf
  simp only [sWriteSecret, CryptStream.new] at h
  rw [pollWrite_small (by omega)] at h
  simp only [List.append_nil] at h
  have hfl : WriteStream.pollFlush A { enc := { key := K }, buffer := fresh } as
      = pollFlushWrite { enc := usedEnc K fresh, inner := false, cipher := false } (packageBytes c) as := by
    have ht : fresh.take u32Max = fresh := List.take_of_length_le (by unfold u32Max; omega)
    have hd : fresh.drop u32Max = [] := List.drop_of_length_le (by unfold u32Max; omega)
    simp only [WriteStream.pollFlush, ht, hd, Bool.and_self, if_true, he]
    rw [if_pos (by omega)]
  simp only [sFlushSecret] at h
  rw [hfl] at h
  split at h
  · cases h
  · cases h
  · rename_i x hp
    cases h
    exact ⟨x, rfl, pollFlushWrite_error hp⟩
  · cases h

theorem sFlushPub_error {other rest pre : Bytes} {as : List IoAns} {e : Error} (hf : fresh.length = 32)
    (h : (sFlushPub A D keys fresh other as rest pre).phase = .failed e) : ∃ x, e = .io x ∧ ErrorIn as x := by
  unfold sFlushPub at h
  split at h
  · cases h
  · cases h
  · cases h; exact ⟨_, rfl, Or.inl (by simp)⟩
  · obtain ⟨x, h1, h2⟩ := sWriteSecret_error hf h
    exact ⟨x, h1, ErrorIn.mono h2 (by simp +contextual)⟩

theorem sSendPub_error {other rem rest : Bytes} {as : List IoAns} {e : Error} (hf : fresh.length = 32)
    (h : (sSendPub A D keys fresh other rem as rest).phase = .failed e) : ∃ x, e = .io x ∧ ErrorIn as x := by
  unfold sSendPub at h
  rcases hp : pollWriteAll rem as with ⟨r0, w, rem', as'⟩
  rw [hp] at h
  rcases r0 with _ | (er | ⟨⟩)
  · cases h
  · cases h; exact ⟨_, rfl, pollWriteAll_error hp⟩
  · obtain ⟨x, h1, h2⟩ := sFlushPub_error hf h
    exact ⟨x, h1, ErrorIn.mono h2 (pollWriteAll_spec hp).2.2.2⟩

/-- Why the server's side of an exchange has failed. -/
def SWhy (D : DH) (keys : Keys) (T : IoErr → Prop) (closed : Bool) (got : Bytes) (e : Error) : Prop :=
  (∃ key, e = .unknownPeer key ∧ key.length = 32 ∧ key <+: got ∧ keys.refuses D key = true) ∨
  (e = .io .unexpectedEof ∧ closed = true ∧ got.length < 32) ∨ ∃ x, e = .io x ∧ T x

theorem serverPoll_why {T : IoErr → Prop} {got tail inp sent : Bytes} {closed cl : Bool} {ph : SPhase} {as : List IoAns} {e : Error}
    (hf : fresh.length = 32) (h : SInv A D keys fresh ph got (inp ++ tail) sent) (hc : closed = true → cl = true ∧ tail = []) (hT : ∀ x, ErrorIn as x → T x)
    (hprev : ∀ e, ph = .failed e → SWhy D keys T cl got e)
    (he : (serverPoll A D keys fresh ph closed inp as).phase = .failed e) : SWhy D keys T cl got e := by
  have ht : (∃ x, e = .io x ∧ ErrorIn as x) → SWhy D keys T cl got e := fun ⟨x, h1, h2⟩ => Or.inr (Or.inr ⟨x, h1, hT x h2⟩)
  cases ph with
  | recvPub acc =>
    obtain ⟨h1, h2, h3⟩ := h
    simp only [serverPoll] at he
    rcases pollPub_spec (closed := closed) (inp := inp) h1 with ⟨key, rest, g1, g2, g3⟩ | ⟨g1, g2⟩ | ⟨g1, g2⟩
    · simp only [g1] at he
      split at he
      · rename_i hr
        cases he
        exact Or.inl ⟨key, rfl, g2, ⟨rest ++ tail, by rw [h2, ← List.append_assoc, ← List.append_assoc, g3]⟩, hr⟩
      · exact ht (sSendPub_error hf he)
    · simp only [g1] at he
      cases he
      obtain ⟨c1, c2⟩ := hc g2
      refine Or.inr (Or.inl ⟨rfl, c1, ?_⟩)
      have : ¬ 32 ≤ acc.length + inp.length := by
        intro hle
        unfold pollPub at g1
        rw [if_pos hle] at g1
        cases g1
      rw [h2, c2]
      simp only [List.append_nil, List.length_append]
      omega
    · simp only [g1] at he
      cases he
  | sendPub other rem => exact ht (sSendPub_error hf he)
  | flushPub other => exact ht (sFlushPub_error hf he)
  | writeSecret st => exact h.elim
  | flushSecret st =>
    obtain ⟨other, rem, h1, h2, h3⟩ := h
    exact ht (sFlushSecret_error h2 he)
  | done st => cases he
  | failed e' => cases he; exact hprev _ rfl
  | panicked => exact h.elim

theorem SWhy.mono {T T' : IoErr → Prop} {closed : Bool} {got bs : Bytes} {e : Error} (h : SWhy D keys T closed got e) (hT : ∀ x, T x → T' x)
    (hc : closed = true → bs = []) : SWhy D keys T' closed (got ++ bs) e := by
  rcases h with ⟨key, h1, h2, h3, h4⟩ | ⟨h1, h2, h3⟩ | ⟨x, h1, h2⟩
  · exact Or.inl ⟨key, h1, h2, h3.trans (List.prefix_append _ _), h4⟩
  · exact Or.inr (Or.inl ⟨h1, h2, by rw [hc h2]; simpa using h3⟩)
  · exact Or.inr (Or.inr ⟨x, h1, hT x h2⟩)

theorem SWhy.close {T : IoErr → Prop} {closed : Bool} {got : Bytes} {e : Error} (h : SWhy D keys T closed got e) : SWhy D keys T true got e := by
  rcases h with h | ⟨h1, h2, h3⟩ | h
  · exact Or.inl h
  · exact Or.inr (Or.inl ⟨h1, rfl, h3⟩)
  · exact Or.inr (Or.inr h)

theorem TransportError.snoc {ops : List Op} {op : Op} {x : IoErr} (h : TransportError ops x) : TransportError (ops ++ [op]) x := by
  obtain ⟨k, as, h1, h2⟩ := h
  exact ⟨k, as, by simp [h1], h2⟩

theorem serverStep_why {ops : List Op} {s s' : Side SPhase} {op : Op} (hf : fresh.length = 32) (h : SInv A D keys fresh s.phase s.got s.inbox s.sent)
    (hw : ∀ e, s.phase = .failed e → SWhy D keys (TransportError ops) s.closed s.got e)
    (hs : s.step (serverPoll A D keys fresh) op = some s') :
    ∀ e, s'.phase = .failed e → SWhy D keys (TransportError (ops ++ [op])) s'.closed s'.got e := by
  have hw' : ∀ e, s.phase = .failed e → SWhy D keys (TransportError (ops ++ [op])) s.closed s.got e := fun e he => by
    have := (hw e he).mono (bs := []) (fun _ => TransportError.snoc (op := op)) (fun _ => rfl)
    simpa using this
  cases op with
  | arrive bs =>
    simp only [Side.step] at hs
    split at hs
    · cases hs
    · rename_i hc
      cases hs
      exact fun e he => (hw' e he).mono (fun _ h => h) (fun h => absurd h hc)
  | close => cases hs; exact fun e he => (hw' e he).close
  | poll k as =>
    simp only [Side.step, Option.some.injEq] at hs
    subst hs
    intro e he
    refine serverPoll_why (tail := s.inbox.drop k) (inp := s.inbox.take k) hf (by rw [List.take_append_drop]; exact h) ?_ (fun x hx => ⟨k, as, by simp, hx⟩) hw' he
    intro hc
    simp only [Bool.and_eq_true, decide_eq_true_eq] at hc
    exact ⟨hc.1, List.drop_of_length_le hc.2⟩

theorem serverRun_why {s s' : Side SPhase} {pre ops : List Op} (hf : fresh.length = 32) (h : SInv A D keys fresh s.phase s.got s.inbox s.sent)
    (hw : ∀ e, s.phase = .failed e → SWhy D keys (TransportError pre) s.closed s.got e)
    (hs : s.run (serverPoll A D keys fresh) ops = some s') :
    ∀ e, s'.phase = .failed e → SWhy D keys (TransportError (pre ++ ops)) s'.closed s'.got e := by
  induction ops generalizing s pre with
  | nil => cases hs; simpa using hw
  | cons op ops ih =>
    obtain ⟨t, h1, h2⟩ := Option.bind_eq_some_iff.1 hs
    have := ih (serverStep_inv hf h h1) (serverStep_why hf h hw h1) h2
    simpa using this

/-! ### The client -/

/-- `Heard`, with the key and the bytes of the packages; the number of the next package; a package in the middle (`acc`). -/
def Reads (A : Aead) (D : DH) (keys : Keys) (got key pkgs : Bytes) (plains : List Bytes) (rest : Bytes) : Prop :=
  got = key ++ pkgs ++ rest ∧ key.length = 32 ∧ keys.refuses D key = false ∧ Packages A (D.dh keys.secret key) 0 plains pkgs

/-- Why the client's side of an exchange has failed. -/
def CWhy (A : Aead) (D : DH) (keys : Keys) (T : IoErr → Prop) (closed : Bool) (got : Bytes) (e : Error) : Prop :=
  (∃ key, e = .unknownPeer key ∧ key.length = 32 ∧ key <+: got ∧ keys.refuses D key = true) ∨
  (e = .io .unexpectedEof ∧ closed = true ∧ (got.length < 32 ∨ ∃ key pkgs plains part, Reads A D keys got key pkgs plains part ∧ plains.flatten.length < 32 ∧ Incomplete part)) ∨
  (e = .io .invalidData ∧ ∃ key pkgs plains pkg rest, Reads A D keys got key pkgs plains (pkg ++ rest) ∧ plains.flatten.length < 32 ∧ complete pkg = true ∧
    A.dec (D.dh keys.secret key) (nonceFromNumber (UInt64.ofNat plains.length)) (pkg.drop 4) = none) ∨
  ∃ x, e = .io x ∧ T x

/-- Where the client is, with an arbitrary server. -/
def CState (A : Aead) (D : DH) (keys : Keys) (T : IoErr → Prop) (closed : Bool) (ph : CPhase) (got inbox : Bytes) : Prop :=
  match ph with
  | .sendPub _ => got = inbox
  | .flushPub => got = inbox
  | .recvPub acc => acc.length < 32 ∧ got = acc ++ inbox
  | .recvSecret st g => st.write = { enc := st.write.enc } ∧ ∃ key pkgs plains acc, Reads A D keys got key pkgs plains (acc ++ inbox) ∧ g = plains.flatten ∧ g.length < 32 ∧ Incomplete acc ∧
      ((st.read = { dec := { key := D.dh keys.secret key, count := UInt64.ofNat plains.length } } ∧ acc = []) ∨
        st.read = { dec := { key := D.dh keys.secret key, count := UInt64.ofNat plains.length }, fut := some (.reading acc) })
  | .done st => ∃ key pkgs plains, Reads A D keys got key pkgs plains inbox ∧ 32 ≤ plains.flatten.length ∧ plains.dropLast.flatten.length < 32 ∧
      st.read = { dec := { key := plains.flatten.take 32 }, remaining := plains.flatten.drop 32 } ∧
      st.write = { enc := { key := plains.flatten.take 32, log := st.write.enc.log } }
  | .failed e => CWhy A D keys T closed got e
  | .panicked => False

theorem package_of_complete {K pkg p : Bytes} {i : Nat} (hc : complete pkg = true) (hd : A.dec K (nonceFromNumber (UInt64.ofNat i)) (pkg.drop 4) = some p) :
    Package A K i p pkg := by
  obtain ⟨g1, g2⟩ := complete_iff.1 hc
  refine ⟨_, pkg.drop 4, pkg.take 4, ⟨putU64 (UInt64.ofNat i), ?_, nonce_eq _⟩, (A.dec_iff _ _ _ _).1 hd, ?_, ?_⟩
  · have := (bigEndian_put64 (x := UInt64.ofNat i) (bs := putU64 (UInt64.ofNat i))).2 rfl
    simpa using this
  · rw [bigEndian_iff]
    refine ⟨by rw [List.length_take]; omega, ?_⟩
    rw [List.length_drop]
    omega
  · rw [List.take_append_drop]

theorem cRecvSecret_why {T : IoErr → Prop} {closed cl : Bool} {got inp tail pre key pkgs acc g : Bytes} {plains : List Bytes} {st : CryptStream}
    (hw : st.write = { enc := st.write.enc }) (h : Reads A D keys got key pkgs plains (acc ++ (inp ++ tail))) (hg : g = plains.flatten) (hl : g.length < 32) (hi : Incomplete acc)
    (hst : (st.read = { dec := { key := D.dh keys.secret key, count := UInt64.ofNat plains.length } } ∧ acc = []) ∨
        st.read = { dec := { key := D.dh keys.secret key, count := UInt64.ofNat plains.length }, fut := some (.reading acc) })
    (hc : closed = true → cl = true ∧ tail = []) :
    let r := cRecvSecret A st g closed inp pre
    CState A D keys T cl r.phase got (r.rest ++ tail) := by
  have hpoll : st.read.pollRead A closed (32 - g.length) (toChunks inp)
      = pollFutRead A closed { dec := { key := D.dh keys.secret key, count := UInt64.ofNat plains.length }, fut := some (.reading acc) } (32 - g.length) (toChunks inp) := by
    rcases hst with ⟨h1, rfl⟩ | h1
    · rw [h1]
      simp only [ReadStream.pollRead, List.take_nil, List.length_nil, List.drop_nil, Nat.sub_zero, List.nil_append]
      rw [if_pos (by omega)]
    · rw [h1]; simp only [ReadStream.pollRead]
  obtain ⟨h1, h2, h3, h4⟩ := h
  simp only [cRecvSecret, hpoll]
  rcases pollPackage_toChunks (closed := closed) (inp := inp) hi with ⟨g1, g2 | g2⟩ | ⟨p, rest, cs, g1, g2, g3, g4⟩
  · simp only [pollFutRead, g2]
    have hcl : closed = true := by
      cases closed with
      | true => rfl
      | false =>
        rw [pollPackage_toChunks_cut g1] at g2
        simp at g2
    obtain ⟨c1, c2⟩ := hc hcl
    exact Or.inr (Or.inl ⟨rfl, c1, Or.inr ⟨key, pkgs, plains, acc ++ inp, ⟨by rw [h1, c2]; simp, h2, h3, h4⟩, hg ▸ hl, g1⟩⟩)
  · simp only [pollFutRead, g2]
    exact ⟨hw, key, pkgs, plains, acc ++ inp, ⟨by rw [h1]; simp, h2, h3, h4⟩, by simpa using hg, by simpa using hl, g1, Or.inr rfl⟩
  · simp only [pollFutRead, g3, Decryptor.decrypt]
    have hrest : acc ++ (inp ++ tail) = p ++ (rest ++ tail) := by rw [← List.append_assoc, g2]; simp
    cases hd : A.dec (D.dh keys.secret key) (nonceFromNumber (UInt64.ofNat plains.length)) (p.drop 4) with
    | none =>
      simp only
      exact Or.inr (Or.inr (Or.inl ⟨rfl, key, pkgs, plains, p, rest ++ tail, ⟨by rw [h1, hrest], h2, h3, h4⟩, hg ▸ hl, g1, hd⟩))
    | some plain =>
      have hpk := package_of_complete (A := A) g1 hd
      have hps := packages_snoc h4 (by rw [Nat.zero_add]; exact hpk)
      have hreads : Reads A D keys got key (pkgs ++ p) (plains ++ [plain]) (rest ++ tail) := ⟨by rw [h1, hrest]; simp, h2, h3, hps⟩
      have hflat : (plains ++ [plain]).flatten = g ++ plain := by rw [hg]; simp
      have hcount : UInt64.ofNat plains.length + 1 = UInt64.ofNat (plains ++ [plain]).length := by simp
      simp only [List.nil_append]
      have hfc : (cs.map Chunk.bytes).flatten = rest := g4
      by_cases hle : 32 - g.length ≤ plain.length
      · rw [if_pos hle]
        simp only [hfc]
        refine ⟨key, pkgs ++ p, plains ++ [plain], hreads, ?_, ?_, ?_, ?_⟩
        · rw [hflat, List.length_append]; omega
        · rw [List.dropLast_concat]; rw [← hg]; exact hl
        · simp only [CryptStream.updateKey, hflat]
          rw [List.take_append, List.drop_append, List.take_of_length_le (by omega : g.length ≤ 32), List.drop_of_length_le (by omega : g.length ≤ 32), List.nil_append]
        · simp only [CryptStream.updateKey, hflat]
          rw [List.take_append, List.take_of_length_le (by omega : g.length ≤ 32), hw]
      · rw [if_neg hle]
        simp only [hfc]
        refine ⟨hw, key, pkgs ++ p, plains ++ [plain], [], by simpa using hreads, ?_, ?_, incomplete_nil, Or.inl ⟨?_, rfl⟩⟩
        · rw [hflat, List.take_of_length_le (by omega)]
        · rw [List.length_append, List.length_take]; omega
        · rw [List.drop_of_length_le (by omega), hcount]

theorem cRecvPub_why {T : IoErr → Prop} {closed cl : Bool} {got tail pre acc inp : Bytes} (hl : acc.length < 32) (hg : got = acc ++ (inp ++ tail))
    (hc : closed = true → cl = true ∧ tail = []) :
    let r := cRecvPub A D keys acc closed inp pre
    CState A D keys T cl r.phase got (r.rest ++ tail) := by
  simp only [cRecvPub]
  rcases pollPub_spec (closed := closed) (inp := inp) hl with ⟨key, rest, g1, g2, g3⟩ | ⟨g1, g2⟩ | ⟨g1, g2⟩
  · simp only [g1]
    have hgot : got = key ++ (rest ++ tail) := by rw [hg, ← List.append_assoc, g3]; simp
    split
    · rename_i hr
      exact Or.inl ⟨key, rfl, g2, ⟨_, hgot.symm⟩, hr⟩
    · rename_i hr
      exact cRecvSecret_why (plains := []) (pkgs := []) (acc := []) rfl ⟨by simpa using hgot, g2, by simpa using hr, rfl⟩ rfl (by simp) incomplete_nil (Or.inl ⟨rfl, rfl⟩) hc
  · simp only [g1]
    obtain ⟨c1, c2⟩ := hc g2
    refine Or.inr (Or.inl ⟨rfl, c1, Or.inl ?_⟩)
    have : ¬ 32 ≤ acc.length + inp.length := by
      intro hle
      unfold pollPub at g1
      rw [if_pos hle] at g1
      cases g1
    rw [hg, c2]
    simp only [List.append_nil, List.length_append]
    omega
  · simp only [g1]
    exact ⟨g2, by simp [hg]⟩

theorem cFlushPub_why {T : IoErr → Prop} {closed cl : Bool} {got tail pre inp : Bytes} {as : List IoAns} (hg : got = inp ++ tail)
    (hc : closed = true → cl = true ∧ tail = []) (hT : ∀ x, ErrorIn as x → T x) :
    let r := cFlushPub A D keys closed as inp pre
    CState A D keys T cl r.phase got (r.rest ++ tail) := by
  unfold cFlushPub
  split
  · exact hg
  · exact hg
  · exact Or.inr (Or.inr (Or.inr ⟨_, rfl, hT _ (Or.inl (by simp))⟩))
  · exact cRecvPub_why (by simp) (by simpa using hg) hc

theorem clientPoll_why {T : IoErr → Prop} {closed cl : Bool} {got tail inp : Bytes} {ph : CPhase} {as : List IoAns} (h : CState A D keys T cl ph got (inp ++ tail))
    (hc : closed = true → cl = true ∧ tail = []) (hT : ∀ x, ErrorIn as x → T x) :
    let r := clientPoll A D keys ph closed inp as
    CState A D keys T cl r.phase got (r.rest ++ tail) := by
  cases ph with
  | sendPub rem =>
    simp only [clientPoll]
    rcases hp : pollWriteAll rem as with ⟨r0, w, rem', as'⟩
    rcases r0 with _ | (er | ⟨⟩)
    · exact h
    · exact Or.inr (Or.inr (Or.inr ⟨_, rfl, hT _ (pollWriteAll_error hp)⟩))
    · exact cFlushPub_why h hc fun x hx => hT x (ErrorIn.mono hx (pollWriteAll_spec hp).2.2.2)
  | flushPub => exact cFlushPub_why h hc hT
  | recvPub acc => exact cRecvPub_why h.1 h.2 hc
  | recvSecret st g =>
    obtain ⟨hw, key, pkgs, plains, acc, h1, h2, h3, h4, h5⟩ := h
    exact cRecvSecret_why hw h1 h2 h3 h4 h5 hc
  | done st => simpa [clientPoll] using h
  | failed e => exact h
  | panicked => exact h

theorem Reads.append {got key pkgs rest bs : Bytes} {plains : List Bytes} (h : Reads A D keys got key pkgs plains rest) :
    Reads A D keys (got ++ bs) key pkgs plains (rest ++ bs) := ⟨by rw [h.1]; simp, h.2⟩

theorem CWhy.mono {T T' : IoErr → Prop} {closed : Bool} {got bs : Bytes} {e : Error} (h : CWhy A D keys T closed got e) (hT : ∀ x, T x → T' x)
    (hc : closed = true → bs = []) : CWhy A D keys T' closed (got ++ bs) e := by
  rcases h with ⟨key, h1, h2, h3, h4⟩ | ⟨h1, h2, h3⟩ | ⟨h1, key, pkgs, plains, pkg, rest, h2, h3⟩ | ⟨x, h1, h2⟩
  · exact Or.inl ⟨key, h1, h2, h3.trans (List.prefix_append _ _), h4⟩
  · exact Or.inr (Or.inl ⟨h1, h2, by rw [hc h2]; simpa using h3⟩)
  · exact Or.inr (Or.inr (Or.inl ⟨h1, key, pkgs, plains, pkg, rest ++ bs, by simpa using h2.append (bs := bs), h3⟩))
  · exact Or.inr (Or.inr (Or.inr ⟨x, h1, hT x h2⟩))

theorem CWhy.close {T : IoErr → Prop} {closed : Bool} {got : Bytes} {e : Error} (h : CWhy A D keys T closed got e) : CWhy A D keys T true got e := by
  rcases h with h | ⟨h1, h2, h3⟩ | h
  · exact Or.inl h
  · exact Or.inr (Or.inl ⟨h1, rfl, h3⟩)
  · exact Or.inr (Or.inr h)

theorem CState.mono {T T' : IoErr → Prop} {closed : Bool} {ph : CPhase} {got inbox bs : Bytes} (h : CState A D keys T closed ph got inbox) (hT : ∀ x, T x → T' x)
    (hc : closed = true → bs = []) : CState A D keys T' closed ph (got ++ bs) (inbox ++ bs) := by
  cases ph with
  | sendPub rem => exact congrArg (· ++ bs) h
  | flushPub => exact congrArg (· ++ bs) h
  | recvPub acc => exact ⟨h.1, by rw [h.2]; simp⟩
  | recvSecret st g =>
    obtain ⟨hw, key, pkgs, plains, acc, h1, h2⟩ := h
    exact ⟨hw, key, pkgs, plains, acc, by simpa using h1.append (bs := bs), h2⟩
  | done st =>
    obtain ⟨key, pkgs, plains, h1, h2⟩ := h
    exact ⟨key, pkgs, plains, h1.append, h2⟩
  | failed e => exact CWhy.mono h hT hc
  | panicked => exact h

theorem CState.close {T : IoErr → Prop} {closed : Bool} {ph : CPhase} {got inbox : Bytes} (h : CState A D keys T closed ph got inbox) :
    CState A D keys T true ph got inbox := by
  cases ph with
  | failed e => exact CWhy.close h
  | _ => exact h

theorem clientStep_why {ops : List Op} {s s' : Side CPhase} {op : Op} (h : CState A D keys (TransportError ops) s.closed s.phase s.got s.inbox)
    (hs : s.step (clientPoll A D keys) op = some s') : CState A D keys (TransportError (ops ++ [op])) s'.closed s'.phase s'.got s'.inbox := by
  have h' : CState A D keys (TransportError (ops ++ [op])) s.closed s.phase s.got s.inbox := by
    have := h.mono (bs := []) (fun _ => TransportError.snoc (op := op)) (fun _ => rfl)
    simpa using this
  cases op with
  | arrive bs =>
    simp only [Side.step] at hs
    split at hs
    · cases hs
    · rename_i hc
      cases hs
      exact h'.mono (fun _ h => h) (fun h => absurd h hc)
  | close => cases hs; exact h'.close
  | poll k as =>
    simp only [Side.step, Option.some.injEq] at hs
    subst hs
    refine clientPoll_why (tail := s.inbox.drop k) (inp := s.inbox.take k) (by rw [List.take_append_drop]; exact h') ?_ (fun x hx => ⟨k, as, by simp, hx⟩)
    intro hc
    simp only [Bool.and_eq_true, decide_eq_true_eq] at hc
    exact ⟨hc.1, List.drop_of_length_le hc.2⟩

theorem clientRun_why {s s' : Side CPhase} {pre ops : List Op} (h : CState A D keys (TransportError pre) s.closed s.phase s.got s.inbox)
    (hs : s.run (clientPoll A D keys) ops = some s') : CState A D keys (TransportError (pre ++ ops)) s'.closed s'.phase s'.got s'.inbox := by
  induction ops generalizing s pre with
  | nil => cases hs; simpa using h
  | cons op ops ih =>
    obtain ⟨t, h1, h2⟩ := Option.bind_eq_some_iff.1 hs
    have := ih (clientStep_why h h1) h2
    simpa using this

theorem incomplete_iff {bs : Bytes} : Incomplete bs ↔ NoPackage bs := by
  constructor
  · intro h lb c rest hb he
    have := h (lb ++ c) rest he
    rw [bigEndian_iff] at hb
    have hc : complete (lb ++ c) = true := by
      rw [complete_iff, List.take_append_of_le_length (by omega), List.take_of_length_le (by omega), List.length_append]
      omega
    rw [hc] at this
    cases this
  · intro h p rest he
    cases hc : complete p with
    | false => rfl
    | true =>
      obtain ⟨g1, g2⟩ := complete_iff.1 hc
      refine absurd ?_ (h (p.take 4) (p.drop 4) rest ?_)
      · rw [List.take_append_drop]; exact he
      · rw [bigEndian_iff, List.length_take, List.length_drop]
        omega

/-! ### Waiting -/

/-- Why the client still waits after a poll in which all that has arrived was handed out. -/
def CWaits (A : Aead) (D : DH) (keys : Keys) (closed : Bool) (got : Bytes) : Prop :=
  (closed = false ∧ (got.length < 32 ∨ ∃ key pkgs plains part, Reads A D keys got key pkgs plains part ∧ plains.flatten.length < 32 ∧ Incomplete part)) ∨
  ∃ key pkgs plains rest, Reads A D keys got key pkgs plains rest ∧ plains ≠ [] ∧ plains.flatten.length < 32

def CEnd (ph : CPhase) : Prop := (∃ st, ph = .done st) ∨ ∃ e, ph = .failed e

theorem cRecvSecret_waits {closed : Bool} {got inp pre key pkgs acc g : Bytes} {plains : List Bytes} {st : CryptStream}
    (h : Reads A D keys got key pkgs plains (acc ++ inp)) (hg : g = plains.flatten) (hl : g.length < 32) (hi : Incomplete acc)
    (hst : (st.read = { dec := { key := D.dh keys.secret key, count := UInt64.ofNat plains.length } } ∧ acc = []) ∨
        st.read = { dec := { key := D.dh keys.secret key, count := UInt64.ofNat plains.length }, fut := some (.reading acc) }) :
    CEnd (cRecvSecret A st g closed inp pre).phase ∨ CWaits A D keys closed got := by
  have hpoll : st.read.pollRead A closed (32 - g.length) (toChunks inp)
      = pollFutRead A closed { dec := { key := D.dh keys.secret key, count := UInt64.ofNat plains.length }, fut := some (.reading acc) } (32 - g.length) (toChunks inp) := by
    rcases hst with ⟨h1, rfl⟩ | h1
    · rw [h1]
      simp only [ReadStream.pollRead, List.take_nil, List.length_nil, List.drop_nil, Nat.sub_zero, List.nil_append]
      rw [if_pos (by omega)]
    · rw [h1]; simp only [ReadStream.pollRead]
  obtain ⟨h1, h2, h3, h4⟩ := h
  simp only [cRecvSecret, hpoll]
  rcases pollPackage_toChunks (closed := closed) (inp := inp) hi with ⟨g1, g2⟩ | ⟨p, rest, cs, g1, g2, g3, g4⟩
  · rw [pollPackage_toChunks_cut g1] at g2
    simp only [pollFutRead, pollPackage_toChunks_cut g1]
    cases closed with
    | true => exact Or.inl (Or.inr ⟨_, rfl⟩)
    | false => exact Or.inr (Or.inl ⟨rfl, Or.inr ⟨key, pkgs, plains, acc ++ inp, ⟨h1, h2, h3, h4⟩, hg ▸ hl, g1⟩⟩)
  · simp only [pollFutRead, g3, Decryptor.decrypt]
    cases hd : A.dec (D.dh keys.secret key) (nonceFromNumber (UInt64.ofNat plains.length)) (p.drop 4) with
    | none => exact Or.inl (Or.inr ⟨_, rfl⟩)
    | some plain =>
      have hpk := package_of_complete (A := A) g1 hd
      have hps := packages_snoc h4 (by rw [Nat.zero_add]; exact hpk)
      simp only [List.nil_append]
      by_cases hle : 32 - g.length ≤ plain.length
      · rw [if_pos hle]; exact Or.inl (Or.inl ⟨_, rfl⟩)
      · refine Or.inr (Or.inr ⟨key, pkgs ++ p, plains ++ [plain], rest, ⟨by rw [h1, g2]; simp, h2, h3, hps⟩, by simp, ?_⟩)
        rw [List.flatten_append, ← hg]
        simp only [List.flatten_cons, List.flatten_nil, List.append_nil, List.length_append]
        omega

theorem cRecvPub_waits {closed : Bool} {got pre acc inp : Bytes} (hl : acc.length < 32) (hg : got = acc ++ inp) :
    CEnd (cRecvPub A D keys acc closed inp pre).phase ∨ CWaits A D keys closed got := by
  simp only [cRecvPub]
  rcases pollPub_spec (closed := closed) (inp := inp) hl with ⟨key, rest, g1, g2, g3⟩ | ⟨g1, g2⟩ | ⟨g1, g2⟩
  · simp only [g1]
    have hgot : got = key ++ rest := by rw [hg, g3]
    split
    · exact Or.inl (Or.inr ⟨_, rfl⟩)
    · rename_i hr
      exact cRecvSecret_waits (plains := []) (pkgs := []) (acc := []) ⟨by simpa using hgot, g2, by simpa using hr, rfl⟩ rfl (by simp) incomplete_nil (Or.inl ⟨rfl, rfl⟩)
  · simp only [g1]; exact Or.inl (Or.inr ⟨_, rfl⟩)
  · refine Or.inr (Or.inl ⟨?_, Or.inl (hg ▸ g2)⟩)
    cases closed with
    | false => rfl
    | true =>
      unfold pollPub at g1
      rw [if_neg (by rw [List.length_append] at g2; omega), if_pos rfl] at g1
      cases g1

theorem clientPoll_waits {T : IoErr → Prop} {closed cl : Bool} {got inp sent : Bytes} {ph : CPhase} {n : Nat} (hn : 32 ≤ n)
    (h : CState A D keys T cl ph got inp) (hi : CInv D keys ph got inp sent) :
    CEnd (clientPoll A D keys ph closed inp [.ready n, .ready n]).phase ∨ CWaits A D keys closed got := by
  cases ph with
  | sendPub rem =>
    obtain ⟨i1, i2, -⟩ := hi
    have hlen : rem.length ≤ n := by
      have := congrArg List.length i2
      rw [List.length_append, D.pub_len] at this
      omega
    simp only [clientPoll, pollWriteAll_big i1 hlen, cFlushPub]
    exact cRecvPub_waits (by simp) (by simpa [CState] using h)
  | flushPub =>
    simp only [clientPoll, cFlushPub]
    exact cRecvPub_waits (by simp) (by simpa [CState] using h)
  | recvPub acc => exact cRecvPub_waits h.1 h.2
  | recvSecret st g =>
    obtain ⟨-, key, pkgs, plains, acc, h1, h2, h3, h4, h5⟩ := h
    exact cRecvSecret_waits h1 h2 h3 h4 h5
  | done st => exact Or.inl (Or.inl ⟨st, rfl⟩)
  | failed e => exact Or.inl (Or.inr ⟨e, rfl⟩)
  | panicked => exact h.elim

def SEnd (ph : SPhase) : Prop := (∃ st, ph = .done st) ∨ ∃ e, ph = .failed e

theorem serverPoll_waits {closed : Bool} {got inp sent : Bytes} {ph : SPhase} {n : Nat} (hf : fresh.length = 32) (hn : 84 ≤ n) (h : SInv A D keys fresh ph got inp sent) :
    SEnd (serverPoll A D keys fresh ph closed inp (ready4 n)).phase ∨ (closed = false ∧ got.length < 32) := by
  have hdone : ∀ (key l : Bytes), got = key ++ l → key.length = 32 → keys.refuses D key = false → (∀ e, ph ≠ .failed e) →
      SEnd (serverPoll A D keys fresh ph closed inp (ready4 n)).phase := fun key l h1 h2 h3 h4 => Or.inl (serverPoll_done hf hn h h1 h2 h3 h4)
  cases ph with
  | recvPub acc =>
    obtain ⟨h1, h2, h3⟩ := h
    rcases pollPub_spec (closed := closed) (inp := inp) h1 with ⟨key, rest, g1, g2, g3⟩ | ⟨g1, g2⟩ | ⟨g1, g2⟩
    · cases hr : keys.refuses D key with
      | true => simp only [serverPoll, g1, hr, if_true]; exact Or.inl (Or.inr ⟨_, rfl⟩)
      | false => exact Or.inl (hdone key rest (h2.trans g3) g2 hr (by simp))
    · simp only [serverPoll, g1]; exact Or.inl (Or.inr ⟨_, rfl⟩)
    · refine Or.inr ⟨?_, h2 ▸ g2⟩
      cases closed with
      | false => rfl
      | true =>
        unfold pollPub at g1
        rw [if_neg (by rw [List.length_append] at g2; omega), if_pos rfl] at g1
        cases g1
  | sendPub other rem => exact Or.inl (hdone other inp h.1.2.2 h.1.1 h.1.2.1 (by simp))
  | flushPub other => exact Or.inl (hdone other inp h.1.2.2 h.1.1 h.1.2.1 (by simp))
  | writeSecret st => exact h.elim
  | flushSecret st =>
    obtain ⟨o, r, h1, -⟩ := h
    exact Or.inl (hdone o inp h1.2.2 h1.1 h1.2.1 (by simp))
  | done st => exact Or.inl (Or.inl ⟨st, rfl⟩)
  | failed e => exact Or.inl (Or.inr ⟨e, rfl⟩)
  | panicked => exact h.elim

end
end Bromine.Handshake
