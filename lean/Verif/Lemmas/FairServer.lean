import Verif.Spec.FairServer
import Verif.Lemmas.HandshakePair
import Verif.Lemmas.FairLink
/-
Progress of the sides of a key exchange under fair polls.
-/
namespace Bromine.Handshake
open Bromine CryptIO CryptWire Spec

section
variable {A : Aead} {D : DH} {keys : Keys} {fresh : Bytes}

/-- The exchange goes on. -/
def SOpen : SPhase → Prop
  | .done _ | .failed _ | .panicked => False
  | _ => True

def slvl : SPhase → Nat
  | .recvPub _ | .sendPub _ _ | .flushPub _ => 0
  | _ => 1

/-- How much of the client's key has been taken. -/
def accLen : SPhase → Nat
  | .recvPub acc => acc.length
  | _ => 32

/-- Bytes taken and sent, and the stage. -/
def smeas (s : Side SPhase) : Nat := s.sent.length + (s.got.length - s.inbox.length) + slvl s.phase

theorem accLen_of_lvl {ph : SPhase} (h : slvl ph = 1) : accLen ph = 32 := by
  cases ph <;> simp_all [slvl, accLen]

theorem sFlushSecret_facts {st : CryptStream} {as : List IoAns} {rest pre : Bytes} :
    let r := sFlushSecret A fresh st as rest pre
    slvl r.phase = 1 ∧ pre.length ≤ r.sent.length := by
  simp only [sFlushSecret]
  split <;> simp [slvl]

theorem sWriteSecret_facts {st : CryptStream} {as : List IoAns} {rest pre : Bytes} :
    let r := sWriteSecret A fresh st as rest pre
    slvl r.phase = 1 ∧ pre.length ≤ r.sent.length := by
  simp only [sWriteSecret]
  split
  · simp [slvl]
  · simp [slvl]
  · simp [slvl]
  · obtain ⟨h1, h2⟩ := sFlushSecret_facts (A := A) (fresh := fresh) (st := { st with write := (st.write.pollWrite A fresh as).ws }) (as := (st.write.pollWrite A fresh as).rest)
      (rest := rest) (pre := pre ++ (st.write.pollWrite A fresh as).wire)
    refine ⟨h1, Nat.le_trans ?_ h2⟩
    simp

theorem sFlushPub_facts {other : Bytes} {as : List IoAns} {rest pre : Bytes} :
    let r := sFlushPub A D keys fresh other as rest pre
    pre.length ≤ r.sent.length ∧ (Answers as → SOpen r.phase → slvl r.phase = 1) ∧ accLen r.phase = 32 := by
  unfold sFlushPub
  split
  · exact ⟨Nat.le_refl _, fun ⟨a, l, h, _⟩ => by (cases h), rfl⟩
  · exact ⟨Nat.le_refl _, fun ⟨a, l, h, h'⟩ => by (cases h; exact absurd rfl h'), rfl⟩
  · exact ⟨Nat.le_refl _, fun _ h => h.elim, rfl⟩
  · exact ⟨sWriteSecret_facts.2, fun _ _ => sWriteSecret_facts.1, accLen_of_lvl sWriteSecret_facts.1⟩

theorem sSendPub_acc {other rem : Bytes} {as : List IoAns} {rest : Bytes} : accLen (sSendPub A D keys fresh other rem as rest).phase = 32 := by
  unfold sSendPub
  split
  · rfl
  · rfl
  · exact sFlushPub_facts.2.2

theorem sSendPub_facts {other rem : Bytes} {as : List IoAns} {rest : Bytes} (hr : rem ≠ []) (ha : Answers as) :
    let r := sSendPub A D keys fresh other rem as rest
    SOpen r.phase → 0 < r.sent.length := by
  obtain ⟨a, l, rfl, ha⟩ := ha
  have hpos : ∀ n, 0 < (pollWriteAll rem (.ready (n + 1) :: l)).2.1.length := fun n => Link.pollWriteAll_grows hr
  have hbad : ∀ a, (a = .ready 0 ∨ ∃ e, a = .fail e) → ∃ e w x y, pollWriteAll rem (a :: l) = (some (.error e), w, x, y) := by
    intro a ha
    cases rem with
    | nil => exact absurd rfl hr
    | cons b bs =>
      rcases ha with rfl | ⟨e, rfl⟩
      · exact ⟨_, _, _, _, by rw [pollWriteAll]⟩
      · exact ⟨_, _, _, _, by rw [pollWriteAll]⟩
  have hok : ∀ n, (a = .ready (n + 1)) → SOpen (sSendPub A D keys fresh other rem (a :: l) rest).phase → 0 < (sSendPub A D keys fresh other rem (a :: l) rest).sent.length := by
    rintro n rfl
    have := hpos n
    unfold sSendPub
    split
    · rename_i h; rw [h] at this; exact fun _ => this
    · rename_i h; exact fun h => h.elim
    · rename_i w _ as' h; rw [h] at this
      exact fun _ => Nat.lt_of_lt_of_le this (sFlushPub_facts).1
  have hno : (a = .ready 0 ∨ ∃ e, a = .fail e) → ¬ SOpen (sSendPub A D keys fresh other rem (a :: l) rest).phase := by
    intro h
    obtain ⟨e, w, x, y, h⟩ := hbad a h
    unfold sSendPub
    rw [h]
    exact fun h => h
  intro r hop
  cases a with
  | pending => exact absurd rfl ha
  | fail e => exact absurd hop (hno (Or.inr ⟨e, rfl⟩))
  | ready n =>
    cases n with
    | zero => exact absurd hop (hno (Or.inl rfl))
    | succ n => exact hok n rfl hop

/-- A poll while the session key is flushed, with an answer of the transport. -/
theorem sFlushSecret_progress {st : CryptStream} {as : List IoAns} {rest K rem : Bytes} (hst : Flushing K fresh st rem) (ha : Answers as) :
    let r := sFlushSecret A fresh st as rest []
    SOpen r.phase → 0 < r.sent.length := by
  obtain ⟨f, rfl, hrem⟩ := hst
  obtain ⟨a, l, rfl, ha⟩ := ha
  simp only [sFlushSecret, WriteStream.pollFlush]
  have hflush : ∀ ws : WriteStream, ∀ w, (pollFutFlush ws (a :: l)).poll ≠ .pending w := by
    intro ws w
    cases a <;> simp_all [pollFutFlush]
  cases f with
  | flushing =>
    simp only []
    split
    · rename_i h; exact absurd h (hflush _ _)
    · exact fun h => h.elim
    · exact fun h => h.elim
    · exact fun h => h.elim
  | writing rem' =>
    simp only [pollFlushWrite]
    cases hr : rem' with
    | nil =>
      rw [pollWriteAll]
      simp only []
      split
      · rename_i h; exact absurd h (hflush _ _)
      · exact fun h => h.elim
      · exact fun h => h.elim
      · exact fun h => h.elim
    | cons b bs =>
      cases a with
      | pending => exact absurd rfl ha
      | fail e => rw [pollWriteAll]; exact fun h => h.elim
      | ready n =>
        cases n with
        | zero => rw [pollWriteAll]; exact fun h => h.elim
        | succ n =>
          have hpos := Link.pollWriteAll_grows (rem := b :: bs) (n := n) (as := l) (by simp)
          rcases hp : pollWriteAll (b :: bs) (.ready (n + 1) :: l) with ⟨r0, w, rem', as'⟩
          rw [hp] at hpos
          rcases r0 with _ | (er | ⟨⟩)
          · intro _; simpa using hpos
          · exact fun h => h.elim
          · simp only []
            split
            · intro _; simpa using hpos
            · exact fun h => h.elim
            · exact fun h => h.elim
            · exact fun h => h.elim

theorem SInv.taken {ph : SPhase} {got inbox sent : Bytes} (h : SInv A D keys fresh ph got inbox sent) (ho : SOpen ph) :
    inbox.length ≤ got.length ∧ got.length - inbox.length = accLen ph ∧ got.length - inbox.length ≤ 32 := by
  have ha : ∀ other, Accepted D keys got inbox other → inbox.length ≤ got.length ∧ got.length - inbox.length = 32 ∧ got.length - inbox.length ≤ 32 := by
    intro other ⟨h1, h2, h3⟩
    rw [h3, List.length_append]; omega
  cases ph with
  | recvPub acc => obtain ⟨h1, h2, h3⟩ := h; rw [h2, List.length_append]; exact ⟨by omega, by simp [accLen], by omega⟩
  | sendPub o r => exact ha o h.1
  | flushPub o => exact ha o h.1
  | writeSecret st => exact h.elim
  | flushSecret st => obtain ⟨o, r, h1, h2⟩ := h; exact ha o h1
  | done st => exact ho.elim
  | failed st => exact ho.elim
  | panicked => exact ho.elim

theorem SInv.sent_le {ph : SPhase} {got inbox sent : Bytes} (hf : fresh.length = 32) (h : SInv A D keys fresh ph got inbox sent) (ho : SOpen ph) :
    sent.length ≤ 84 := by
  have hp := D.pub_len keys.secret
  cases ph with
  | recvPub acc => rw [h.2.2]; simp
  | sendPub o r => have := congrArg List.length h.2.2; rw [List.length_append] at this; omega
  | flushPub o => have := congrArg List.length h.2; omega
  | writeSecret st => exact h.elim
  | flushSecret st =>
    obtain ⟨o, r, h1, h2, h3⟩ := h
    have := congrArg List.length h3
    rw [List.length_append, List.length_append, length_secretPkg hf] at this
    omega
  | done st => exact ho.elim
  | failed st => exact ho.elim
  | panicked => exact ho.elim

theorem smeas_le {s : Side SPhase} (hf : fresh.length = 32) (h : SInv A D keys fresh s.phase s.got s.inbox s.sent) (ho : SOpen s.phase) : smeas s ≤ 117 := by
  have h1 := h.sent_le hf ho
  have h2 := (h.taken ho).2.2
  have h3 : slvl s.phase ≤ 1 := by unfold slvl; split <;> omega
  unfold smeas
  omega

theorem serverPoll_acc {ph : SPhase} {closed : Bool} {inp : Bytes} {as : List IoAns} (h : accLen ph ≤ 32) (ho : ∀ e, (serverPoll A D keys fresh ph closed inp as).phase ≠ .failed e)
    (hp : SOpen ph) :
    accLen ph ≤ accLen (serverPoll A D keys fresh ph closed inp as).phase ∧
    (∀ acc, ph = .recvPub acc → acc.length < 32 → inp ≠ [] → acc.length < accLen (serverPoll A D keys fresh ph closed inp as).phase) := by
  cases ph with
  | recvPub acc =>
    simp only [accLen] at h
    have key : acc.length + (if inp ≠ [] ∧ acc.length < 32 then 1 else 0) ≤ accLen (serverPoll A D keys fresh (.recvPub acc) closed inp as).phase := by
      simp only [serverPoll] at ho ⊢
      split at ho
      · rename_i acc' heq
        unfold pollPub at heq
        split at heq
        · cases heq
        · split at heq
          · cases heq
          · cases heq
            simp only [accLen, List.length_append]
            split
            · rename_i hi
              have := List.length_pos_iff.2 hi.1
              omega
            · omega
      · exact absurd rfl (ho _)
      · split at ho
        · exact absurd rfl (ho _)
        · rename_i hr
          rw [if_neg hr, sSendPub_acc]
          split <;> omega
    refine ⟨?_, ?_⟩
    · simp only [accLen] at *
      omega
    · rintro _ ⟨⟩ h1 h2
      rw [if_pos ⟨h2, h1⟩] at key
      omega
  | sendPub o r => exact ⟨by rw [show serverPoll A D keys fresh (.sendPub o r) closed inp as = sSendPub A D keys fresh o r as inp from rfl, sSendPub_acc]; exact h, by simp⟩
  | flushPub o => exact ⟨by rw [show serverPoll A D keys fresh (.flushPub o) closed inp as = sFlushPub A D keys fresh o as inp [] from rfl, sFlushPub_facts.2.2]; exact h, by simp⟩
  | writeSecret st => exact ⟨by rw [show serverPoll A D keys fresh (.writeSecret st) closed inp as = sWriteSecret A fresh st as inp [] from rfl, accLen_of_lvl sWriteSecret_facts.1]; exact h, by simp⟩
  | flushSecret st => exact ⟨by rw [show serverPoll A D keys fresh (.flushSecret st) closed inp as = sFlushSecret A fresh st as inp [] from rfl, accLen_of_lvl sFlushSecret_facts.1]; exact h, by simp⟩
  | done st => exact hp.elim
  | failed e => exact hp.elim
  | panicked => exact hp.elim

theorem serverPoll_lvl {ph : SPhase} {closed : Bool} {inp : Bytes} {as : List IoAns} : slvl ph ≤ slvl (serverPoll A D keys fresh ph closed inp as).phase := by
  cases ph with
  | writeSecret st => rw [show serverPoll A D keys fresh (.writeSecret st) closed inp as = sWriteSecret A fresh st as inp [] from rfl, sWriteSecret_facts.1]; exact Nat.le_refl _
  | flushSecret st => rw [show serverPoll A D keys fresh (.flushSecret st) closed inp as = sFlushSecret A fresh st as inp [] from rfl, sFlushSecret_facts.1]; exact Nat.le_refl _
  | recvPub _ => exact Nat.zero_le _
  | sendPub _ _ => exact Nat.zero_le _
  | flushPub _ => exact Nat.zero_le _
  | done st => exact Nat.le_refl _
  | failed e => exact Nat.le_refl _
  | panicked => exact Nat.le_refl _

theorem accLen_le {ph : SPhase} {got inbox sent : Bytes} (h : SInv A D keys fresh ph got inbox sent) : accLen ph ≤ 32 := by
  cases ph with
  | recvPub acc => have := h.1; simp only [accLen]; omega
  | _ => exact Nat.le_refl _

/-- What one step of an open exchange does to the measure. -/
theorem server_progress {s s' : Side SPhase} {op : Op} (hf : fresh.length = 32) (h : SInv A D keys fresh s.phase s.got s.inbox s.sent)
    (hs : s.step (serverPoll A D keys fresh) op = some s') (ho : SOpen s.phase) (ho' : SOpen s'.phase) :
    smeas s ≤ smeas s' ∧ s.got.length ≤ s'.got.length ∧ accLen s.phase ≤ accLen s'.phase ∧
    (∀ k as, op = .poll k as → (accLen s.phase < 32 → 0 < k → s.inbox ≠ [] → smeas s < smeas s') ∧
      (32 ≤ accLen s.phase → Answers as → smeas s < smeas s')) := by
  have h' := serverStep_inv hf h hs
  have ht := h.taken ho
  have ht' := h'.taken ho'
  have hal := accLen_le h
  cases op with
  | arrive bs =>
    simp only [Side.step] at hs
    split at hs
    · cases hs
    · cases hs
      refine ⟨?_, by simp, Nat.le_refl _, by simp⟩
      unfold smeas
      simp only [List.length_append]
      omega
  | close => cases hs; exact ⟨Nat.le_refl _, Nat.le_refl _, Nat.le_refl _, by simp⟩
  | poll k as =>
    have hlv := serverPoll_lvl (A := A) (D := D) (keys := keys) (fresh := fresh) (ph := s.phase) (closed := s.closed && decide (s.inbox.length ≤ k)) (inp := s.inbox.take k) (as := as)
    simp only [Side.step, Option.some.injEq] at hs
    have hph : s'.phase = (serverPoll A D keys fresh s.phase (s.closed && decide (s.inbox.length ≤ k)) (s.inbox.take k) as).phase := by rw [← hs]
    have hsent : s'.sent = s.sent ++ (serverPoll A D keys fresh s.phase (s.closed && decide (s.inbox.length ≤ k)) (s.inbox.take k) as).sent := by rw [← hs]
    have hgot : s'.got = s.got := by rw [← hs]
    have hacc := serverPoll_acc (A := A) (D := D) (keys := keys) (fresh := fresh) (ph := s.phase) (closed := s.closed && decide (s.inbox.length ≤ k)) (inp := s.inbox.take k) (as := as) hal
      (by rw [← hph]; intro e he; rw [he] at ho'; exact ho') ho
    rw [← hph] at hacc hlv
    have hsl := congrArg List.length hsent
    rw [List.length_append] at hsl
    have hle : smeas s ≤ smeas s' := by unfold smeas; omega
    refine ⟨hle, by rw [hgot]; exact Nat.le_refl _, hacc.1, ?_⟩
    rintro _ _ ⟨⟩
    refine ⟨?_, ?_⟩
    · intro hlt hk hne
      have : accLen s.phase < accLen s'.phase := by
        cases hp : s.phase with
        | recvPub acc =>
          rw [hp] at hlt
          exact hacc.2 acc hp hlt (by intro h0; rcases List.take_eq_nil_iff.1 h0 with h0 | h0; · omega
                                      · exact hne h0)
        | _ => rw [hp] at hlt; exact absurd hlt (by simp [accLen])
      unfold smeas; omega
    · intro hge ha
      have : s.sent.length < s'.sent.length ∨ slvl s.phase < slvl s'.phase := by
        cases hp : s.phase with
        | recvPub acc =>
          rw [hp] at hge h
          have := h.1
          exact absurd hge (by simp only [accLen]; omega)
        | sendPub o r =>
          rw [hp] at h hph hsl
          have := sSendPub_facts (A := A) (D := D) (keys := keys) (fresh := fresh) (other := o) (rest := s.inbox.take k) h.2.1 ha (by rw [hph] at ho'; exact ho')
          simp only [serverPoll] at hsl
          exact Or.inl (by omega)
        | flushPub o =>
          rw [hp] at hph
          have := (sFlushPub_facts (A := A) (D := D) (keys := keys) (fresh := fresh) (other := o) (rest := s.inbox.take k) (pre := [])).2.1 ha (by rw [hph] at ho'; exact ho')
          exact Or.inr (by rw [hph]; simp only [serverPoll, this]; simp [slvl])
        | writeSecret st => rw [hp] at h; exact h.elim
        | flushSecret st =>
          rw [hp] at h hph hsl
          obtain ⟨o, rem, h1, h2, h3⟩ := h
          have := sFlushSecret_progress (A := A) (rest := s.inbox.take k) h2 ha (by rw [hph] at ho'; exact ho')
          simp only [serverPoll] at hsl
          exact Or.inl (by omega)
        | done st => rw [hp] at ho; exact ho.elim
        | failed e => rw [hp] at ho; exact ho.elim
        | panicked => rw [hp] at ho; exact ho.elim
      unfold smeas; omega

/-- A bounded function cannot grow again and again without ever shrinking. -/
theorem no_climb {f : Nat → Nat} {n B : Nat} (hm : ∀ m, n ≤ m → f m ≤ f (m + 1)) (hb : ∀ m, n ≤ m → f m ≤ B)
    (hi : ∀ m, n ≤ m → ∃ m', m ≤ m' ∧ f m' < f (m' + 1)) : False := by
  obtain ⟨m, h1, h2⟩ := Link.climb hm hi (B + 1)
  have := hb m h1
  omega

theorem mono_from {f : Nat → Nat} {n : Nat} (hm : ∀ m, n ≤ m → f m ≤ f (m + 1)) {a b : Nat} (ha : n ≤ a) (hab : a ≤ b) : f a ≤ f b := by
  induction hab with
  | refl => exact Nat.le_refl _
  | @step b hb ih => exact Nat.le_trans ih (hm b (Nat.le_trans ha hb))

/-- A server's side that is polled for ever, has the client's key at hand and does not end is one whose transport does not take what it writes. -/
theorem side_blocked {x : Nat → Side SPhase} {n : Nat} (hf : fresh.length = 32) (hinv : ∀ m, n ≤ m → SInv A D keys fresh (x m).phase (x m).got (x m).inbox (x m).sent)
    (hopen : ∀ m, n ≤ m → SOpen (x m).phase) (hstep : ∀ m, n ≤ m → x (m + 1) = x m ∨ ∃ o, (x m).step (serverPoll A D keys fresh) o = some (x (m + 1)))
    (hgot : 32 ≤ (x n).got.length) (P : Nat → Nat → List IoAns → Prop)
    (hP : ∀ m, n ≤ m → ∀ k as, P m k as → (x m).step (serverPoll A D keys fresh) (.poll k as) = some (x (m + 1)))
    (reads : ∀ a, n ≤ a → ∃ m, a ≤ m ∧ ∃ k as, P m k as ∧ 0 < k) :
    ∃ n', ∀ m, n' ≤ m → ∀ k as, P m k as → ¬ Answers as := by
  have hall : ∀ m, n ≤ m → smeas (x m) ≤ smeas (x (m + 1)) ∧ (x m).got.length ≤ (x (m + 1)).got.length ∧ accLen (x m).phase ≤ accLen (x (m + 1)).phase := by
    intro m hm
    rcases hstep m hm with h | ⟨o, h⟩
    · rw [h]; exact ⟨Nat.le_refl _, Nat.le_refl _, Nat.le_refl _⟩
    · obtain ⟨a, b, c, -⟩ := server_progress hf (hinv m hm) h (hopen m hm) (hopen (m + 1) (by omega))
      exact ⟨a, b, c⟩
  have hbound : ∀ m, n ≤ m → smeas (x m) ≤ 117 := fun m hm => smeas_le hf (hinv m hm) (hopen m hm)
  have hkey : ∃ n1, n ≤ n1 ∧ 32 ≤ accLen (x n1).phase := by
    apply Classical.byContradiction
    intro hno
    have hlt : ∀ m, n ≤ m → accLen (x m).phase < 32 := by
      intro m hm
      apply Nat.lt_of_not_le
      intro h
      exact hno ⟨m, hm, h⟩
    refine no_climb (fun m hm => (hall m hm).1) hbound ?_
    intro m hm
    obtain ⟨m', h1, k, as, h2, h3⟩ := reads m hm
    have hm' : n ≤ m' := by omega
    refine ⟨m', h1, ((server_progress hf (hinv m' hm') (hP m' hm' k as h2) (hopen m' hm') (hopen (m' + 1) (by omega))).2.2.2 k as rfl).1 (hlt m' hm') h3 ?_⟩
    intro h0
    have hg := mono_from (f := fun m => (x m).got.length) (fun m hm => (hall m hm).2.1) (Nat.le_refl n) hm'
    have ht := (hinv m' hm').taken (hopen m' hm')
    have hl := hlt m' hm'
    try dsimp only at hg
    rw [h0, List.length_nil] at ht
    omega
  obtain ⟨n1, hn1, hk⟩ := hkey
  apply Classical.byContradiction
  intro hno
  refine no_climb (n := n1) (fun m hm => (hall m (by omega)).1) (fun m hm => hbound m (by omega)) ?_
  intro m hm
  apply Classical.byContradiction
  intro hno'
  apply hno
  refine ⟨m, fun m' hm' k as hp ha => hno' ⟨m', hm', ?_⟩⟩
  have hm'' : n ≤ m' := by omega
  refine ((server_progress hf (hinv m' hm'') (hP m' hm'' k as hp) (hopen m' hm'') (hopen (m' + 1) (by omega))).2.2.2 k as rfl).2 ?_ ha
  exact Nat.le_trans hk (mono_from (f := fun m => accLen (x m).phase) (fun m hm => (hall m hm).2.2) hn1 (by omega))

/-- A server's side with less than the client's key, whose client has closed the connection, polled for ever, ends. -/
theorem side_closed {x : Nat → Side SPhase} {n : Nat} (hinv : ∀ m, n ≤ m → SInv A D keys fresh (x m).phase (x m).got (x m).inbox (x m).sent)
    (hopen : ∀ m, n ≤ m → SOpen (x m).phase) (hstep : ∀ m, n ≤ m → x (m + 1) = x m ∨ ∃ o, (x m).step (serverPoll A D keys fresh) o = some (x (m + 1)))
    (hgot : (x n).got.length < 32) (hcl : (x n).closed = true) (P : Nat → Nat → List IoAns → Prop)
    (hP : ∀ m, n ≤ m → ∀ k as, P m k as → (x m).step (serverPoll A D keys fresh) (.poll k as) = some (x (m + 1)))
    (reads : ∀ a, n ≤ a → ∃ m, a ≤ m ∧ ∃ k as, P m k as ∧ 0 < k) : False := by
  have hsame : ∀ m, n ≤ m → (x m).closed = true ∧ (x m).got = (x n).got := by
    intro m hm
    induction hm with
    | refl => exact ⟨hcl, rfl⟩
    | @step m hm ih =>
      rcases hstep m hm with h | ⟨o, h⟩
      · rw [h]; exact ih
      · generalize x (m + 1) = y at h
        cases o with
        | arrive bs => simp [Side.step, ih.1] at h
        | close => cases h; exact ⟨rfl, ih.2⟩
        | poll k as => cases h; exact ih
  have hrecv : ∀ m, n ≤ m → ∃ acc, (x m).phase = .recvPub acc ∧ acc.length + (x m).inbox.length < 32 := by
    intro m hm
    have h1 := hinv m hm
    have h2 := hopen m hm
    have hg := (hsame m hm).2
    have ht := h1.taken h2
    cases hp : (x m).phase with
    | recvPub acc =>
      rw [hp] at h1
      refine ⟨acc, rfl, ?_⟩
      have := congrArg List.length h1.2.1
      rw [hg, List.length_append] at this
      omega
    | _ => rw [hp, hg] at ht; simp only [accLen] at ht; omega
  have hpoll : ∀ m, n ≤ m → ∀ k as, (x m).step (serverPoll A D keys fresh) (.poll k as) = some (x (m + 1)) →
      accLen (x (m + 1)).phase = accLen (x m).phase + k := by
    intro m hm k as h
    obtain ⟨acc, h1, h2⟩ := hrecv m hm
    have ho := hopen (m + 1) (by omega)
    have hc := (hsame m hm).1
    generalize x (m + 1) = y at h ho
    simp only [Side.step, serverPoll, h1, pollPub, hc, Bool.true_and] at h
    have hlt : ¬ 32 ≤ acc.length + ((x m).inbox.take k).length := by rw [List.length_take]; omega
    rw [if_neg hlt] at h
    by_cases hk : (x m).inbox.length ≤ k
    · rw [if_pos (by simpa using hk)] at h
      cases h
      exact ho.elim
    · rw [if_neg (by simpa using hk)] at h
      cases h
      simp only [accLen, h1, List.length_append, List.length_take]
      omega
  refine no_climb (n := n) (B := 32) (f := fun m => accLen (x m).phase) ?_ ?_ ?_
  · intro m hm
    rcases hstep m hm with h | ⟨o, h⟩
    · rw [h]; exact Nat.le_refl _
    · cases o with
      | arrive bs => simp [Side.step, (hsame m hm).1] at h
      | close => generalize x (m + 1) = y at h; cases h; exact Nat.le_refl _
      | poll k as => have := hpoll m hm k as h; omega
  · intro m hm
    obtain ⟨acc, h1, h2⟩ := hrecv m hm
    simp only [h1, accLen]
    omega
  · intro m hm
    obtain ⟨m', h1, k, as, h2, h3⟩ := reads m hm
    have := hpoll m' (by omega) k as (hP m' (by omega) k as h2)
    exact ⟨m', h1, by omega⟩

/-! ### The client -/

def COpen : CPhase → Prop
  | .done _ | .failed _ | .panicked => False
  | _ => True

def clvl : CPhase → Nat
  | .sendPub _ | .flushPub => 0
  | _ => 1

def cmeas (s : Side CPhase) : Nat := s.sent.length + (s.got.length - s.inbox.length) + clvl s.phase

theorem pollPackage_pending {closed : Bool} {acc acc' inp : Bytes} {cs : List Chunk} (h : pollPackage closed acc (toChunks inp) = (.pending acc', cs)) : cs = [] := by
  cases inp with
  | nil =>
    simp only [toChunks, pollPackage] at h
    split at h <;> cases h
    rfl
  | cons b bs =>
    simp only [toChunks, pollPackage] at h
    split at h
    · cases h
    · split at h <;> cases h
      rfl

/-- Whether a package is being read. -/
def Reading : CPhase → Prop
  | .recvSecret st _ => st.read.fut ≠ none
  | _ => True

theorem cRecvSecret_facts {st : CryptStream} {got inp pre : Bytes} {closed : Bool} :
    let r := cRecvSecret A st got closed inp pre
    clvl r.phase = 1 ∧ r.sent = pre ∧ (COpen r.phase → Reading r.phase → r.rest = []) := by
  simp only [cRecvSecret]
  have key : ∀ w, (st.read.pollRead A closed (32 - got.length) (toChunks inp)).poll = .pending w →
      (st.read.pollRead A closed (32 - got.length) (toChunks inp)).rs.fut ≠ none → (st.read.pollRead A closed (32 - got.length) (toChunks inp)).chunks = [] := by
    intro w hw hr
    have hfut : ∀ rs : ReadStream, ∀ want, (pollFutRead A closed rs want (toChunks inp)).poll = .pending w → (pollFutRead A closed rs want (toChunks inp)).rs.fut ≠ none →
        (pollFutRead A closed rs want (toChunks inp)).chunks = [] := by
      intro rs want h1 h2
      unfold pollFutRead at h1 h2 ⊢
      split
      · rename_i acc hacc
        simp only [hacc] at h1 h2
        split
        · rename_i heq; exact pollPackage_pending heq
        · rename_i heq; rw [heq] at h1; cases h1
        · rename_i heq
          rw [heq] at h1 h2
          simp only at h1 h2
          split at h2
          · rename_i hd; rw [hd] at h1; cases h1
          · exact absurd rfl h2
      · rename_i hacc
        split at h1
        · rename_i hb; exact absurd hb (hacc _)
        · cases h1
    unfold ReadStream.pollRead at hw hr ⊢
    split
    · rename_i heq; simp only [heq] at hw hr; exact hfut _ _ hw hr
    · rename_i heq
      simp only [heq] at hw hr
      dsimp only
      by_cases hl : (List.take (32 - got.length) st.read.remaining).length < 32 - got.length
      · rw [if_pos hl] at hw hr ⊢
        exact hfut _ _ hw hr
      · rw [if_neg hl] at hw
        cases hw
  split
  · rename_i w hw
    refine ⟨rfl, rfl, fun _ hr => ?_⟩
    rw [key w hw hr]
    rfl
  · exact ⟨rfl, rfl, fun h => h.elim⟩
  · exact ⟨rfl, rfl, fun h => h.elim⟩
  · exact ⟨rfl, rfl, fun h => h.elim⟩

theorem cRecvPub_facts {acc inp pre : Bytes} {closed : Bool} :
    let r := cRecvPub A D keys acc closed inp pre
    clvl r.phase = 1 ∧ r.sent = pre ∧ (COpen r.phase → Reading r.phase → r.rest = []) := by
  unfold cRecvPub
  split
  · exact ⟨rfl, rfl, fun _ _ => rfl⟩
  · exact ⟨rfl, rfl, fun h => h.elim⟩
  · split
    · exact ⟨rfl, rfl, fun h => h.elim⟩
    · exact cRecvSecret_facts

theorem cFlushPub_facts {inp pre : Bytes} {closed : Bool} {as : List IoAns} :
    let r := cFlushPub A D keys closed as inp pre
    r.sent = pre ∧ (COpen r.phase → Reading r.phase → r.rest = [] ∨ (clvl r.phase = 0 ∧ r.rest = inp)) ∧ (Answers as → COpen r.phase → clvl r.phase = 1) := by
  unfold cFlushPub
  split
  · exact ⟨rfl, fun _ _ => Or.inr ⟨rfl, rfl⟩, fun ⟨a, l, h, _⟩ => by cases h⟩
  · exact ⟨rfl, fun _ _ => Or.inr ⟨rfl, rfl⟩, fun ⟨a, l, h, h'⟩ => by (cases h; exact absurd rfl h')⟩
  · exact ⟨rfl, fun h => h.elim, fun _ h => h.elim⟩
  · exact ⟨cRecvPub_facts.2.1, fun h1 h2 => Or.inl (cRecvPub_facts.2.2 h1 h2), fun _ _ => cRecvPub_facts.1⟩

/-- One poll of a client whose exchange goes on. -/
theorem clientPoll_facts {ph : CPhase} {closed : Bool} {inp : Bytes} {as : List IoAns} (hp : COpen ph) :
    let r := clientPoll A D keys ph closed inp as
    COpen r.phase → Reading r.phase →
    (r.rest = [] ∨ (clvl ph = 0 ∧ clvl r.phase = 0 ∧ r.rest = inp)) ∧ clvl ph ≤ clvl r.phase ∧ (clvl ph = 1 → r.rest = []) ∧
    (clvl ph = 0 → (∀ rem, ph = .sendPub rem → rem ≠ []) → Answers as → 0 < r.sent.length ∨ clvl r.phase = 1) := by
  intro r ho hr
  cases ph with
  | sendPub rem =>
    have hsend : r = (match pollWriteAll rem as with
      | (none, w, rem, _) => { phase := .sendPub rem, rest := inp, sent := w }
      | (some (.error e), w, _, _) => { phase := .failed (.io e), rest := inp, sent := w }
      | (some (.ok _), w, _, as) => cFlushPub A D keys closed as inp w) := rfl
    have hgrow : rem ≠ [] → Answers as → (∀ e w x y, pollWriteAll rem as ≠ (some (.error e), w, x, y)) → 0 < (pollWriteAll rem as).2.1.length := by
      rintro hne ⟨a, l, rfl, ha⟩ hno
      cases a with
      | pending => exact absurd rfl ha
      | fail e =>
        cases rem with
        | nil => exact absurd rfl hne
        | cons b bs => exact absurd (by rw [pollWriteAll]) (hno e [] (b :: bs) l)
      | ready n =>
        cases n with
        | zero =>
          cases rem with
          | nil => exact absurd rfl hne
          | cons b bs => exact absurd (by rw [pollWriteAll]) (hno .writeZero [] (b :: bs) l)
        | succ n => exact Link.pollWriteAll_grows hne
    rcases hpw : pollWriteAll rem as with ⟨r0, w, rem', as'⟩
    rw [hpw] at hsend hgrow
    rcases r0 with _ | (er | ⟨⟩)
    · rw [hsend]
      exact ⟨Or.inr ⟨rfl, rfl, rfl⟩, Nat.le_refl _, (fun h => by cases h), fun _ h1 h2 => Or.inl (hgrow (h1 _ rfl) h2 (by simp))⟩
    · rw [hsend] at ho; exact ho.elim
    · have f := cFlushPub_facts (A := A) (D := D) (keys := keys) (inp := inp) (pre := w) (closed := closed) (as := as')
      simp only at hsend
      rw [← hsend] at f
      refine ⟨?_, Nat.zero_le _, (fun h => by cases h), ?_⟩
      · rcases f.2.1 ho hr with h | h
        · exact Or.inl h
        · exact Or.inr ⟨rfl, h.1, h.2⟩
      · intro _ h1 h2
        rw [f.1]
        exact Or.inl (hgrow (h1 _ rfl) h2 (by simp))
  | flushPub =>
    have f := cFlushPub_facts (A := A) (D := D) (keys := keys) (inp := inp) (pre := []) (closed := closed) (as := as)
    refine ⟨?_, Nat.zero_le _, (fun h => by cases h), fun _ _ h2 => Or.inr (f.2.2 h2 ho)⟩
    rcases f.2.1 ho hr with h | h
    · exact Or.inl h
    · exact Or.inr ⟨rfl, h.1, h.2⟩
  | recvPub acc =>
    have f := cRecvPub_facts (A := A) (D := D) (keys := keys) (acc := acc) (inp := inp) (pre := []) (closed := closed)
    have hz := f.2.2 ho hr
    exact ⟨Or.inl hz, Nat.le_of_eq f.1.symm, fun _ => hz, fun h => by cases h⟩
  | recvSecret st g =>
    have f := cRecvSecret_facts (A := A) (st := st) (got := g) (inp := inp) (pre := []) (closed := closed)
    have hz := f.2.2 ho hr
    exact ⟨Or.inl hz, Nat.le_of_eq f.1.symm, fun _ => hz, fun h => by cases h⟩
  | done st => exact hp.elim
  | failed e => exact hp.elim
  | panicked => exact hp.elim

theorem CHon.taken {P : Bytes} {ph : CPhase} {got inbox : Bytes} (hf : fresh.length = 32) (hP : P.length = 32) (h : CHon A D keys fresh P ph got inbox) (ho : COpen ph) :
    inbox.length ≤ got.length ∧ Reading ph ∧ (got.length - inbox.length < 84) ∧ (clvl ph = 0 → got.length = inbox.length) := by
  have hl := length_secretPkg (A := A) (K := D.dh keys.secret P) hf
  cases ph with
  | sendPub r => have h : got = inbox := h; subst h; exact ⟨Nat.le_refl _, trivial, by omega, fun _ => rfl⟩
  | flushPub => have h : got = inbox := h; subst h; exact ⟨Nat.le_refl _, trivial, by omega, fun _ => rfl⟩
  | recvPub acc =>
    obtain ⟨h1, h2⟩ := h
    rw [h2, List.length_append]
    exact ⟨by omega, trivial, by omega, fun h => by cases h⟩
  | recvSecret st g =>
    obtain ⟨h1, acc, y, h2, h3, h4, h5⟩ := h
    have := congrArg List.length h3
    have hy := List.length_pos_iff.2 h4
    rw [List.length_append, hl] at this
    rw [h5]
    simp only [List.length_append]
    refine ⟨by omega, ?_, by omega, fun h => by cases h⟩
    rw [h2]
    simp [Reading]
  | done st => exact ho.elim
  | failed e => exact ho.elim
  | panicked => exact ho.elim

theorem client_progress {P : Bytes} {s s' : Side CPhase} {op : Op} (hf : fresh.length = 32) (hP : P.length = 32)
    (h : CHon A D keys fresh P s.phase s.got s.inbox) (h' : CHon A D keys fresh P s'.phase s'.got s'.inbox) (hc : CInv D keys s.phase s.got s.inbox s.sent)
    (hs : s.step (clientPoll A D keys) op = some s') (ho : COpen s.phase) (ho' : COpen s'.phase) :
    cmeas s ≤ cmeas s' ∧ clvl s.phase ≤ clvl s'.phase ∧
    (∀ k as, op = .poll k as → (clvl s.phase = 0 → Answers as → cmeas s < cmeas s') ∧ (clvl s.phase = 1 → 0 < k → s.inbox ≠ [] → cmeas s < cmeas s')) := by
  have ht := h.taken hf hP ho
  have ht' := h'.taken hf hP ho'
  cases op with
  | arrive bs =>
    simp only [Side.step] at hs
    split at hs
    · cases hs
    · cases hs
      refine ⟨?_, Nat.le_refl _, by simp⟩
      unfold cmeas
      simp only [List.length_append]
      omega
  | close => cases hs; exact ⟨Nat.le_refl _, Nat.le_refl _, by simp⟩
  | poll k as =>
    simp only [Side.step, Option.some.injEq] at hs
    have hph : s'.phase = (clientPoll A D keys s.phase (s.closed && decide (s.inbox.length ≤ k)) (s.inbox.take k) as).phase := by rw [← hs]
    have hsent : s'.sent = s.sent ++ (clientPoll A D keys s.phase (s.closed && decide (s.inbox.length ≤ k)) (s.inbox.take k) as).sent := by rw [← hs]
    have hgot : s'.got = s.got := by rw [← hs]
    have hin : s'.inbox = (clientPoll A D keys s.phase (s.closed && decide (s.inbox.length ≤ k)) (s.inbox.take k) as).rest ++ s.inbox.drop k := by rw [← hs]
    obtain ⟨f1, f2, f3, f4⟩ := clientPoll_facts (A := A) (D := D) (keys := keys) (closed := s.closed && decide (s.inbox.length ≤ k)) (inp := s.inbox.take k) (as := as) ho
      (by rw [← hph]; exact ho') (by rw [← hph]; exact ht'.2.1)
    rw [← hph] at f1 f2 f4
    have hsl := congrArg List.length hsent
    have hil := congrArg List.length hin
    have hgl := congrArg List.length hgot
    rw [List.length_append] at hsl hil
    rw [List.length_drop] at hil
    have hrest : (clientPoll A D keys s.phase (s.closed && decide (s.inbox.length ≤ k)) (s.inbox.take k) as).rest.length ≤ min k s.inbox.length := by
      rcases f1 with f1 | ⟨-, -, f1⟩
      · rw [f1]; simp
      · rw [f1, List.length_take]; exact Nat.le_refl _
    have hle : cmeas s ≤ cmeas s' := by unfold cmeas; omega
    refine ⟨hle, f2, ?_⟩
    rintro _ _ ⟨⟩
    refine ⟨?_, ?_⟩
    · intro h0 ha
      rcases f4 h0 (by intro rem hr; rw [hr] at hc; exact hc.1) ha with h1 | h1
      · unfold cmeas; omega
      · unfold cmeas; omega
    · intro h1 hk hne
      have := List.length_pos_iff.2 hne
      rw [f3 h1, List.length_nil] at hil
      unfold cmeas
      omega

theorem cmeas_le {P : Bytes} {s : Side CPhase} (hf : fresh.length = 32) (hP : P.length = 32) (h : CHon A D keys fresh P s.phase s.got s.inbox)
    (hc : CInv D keys s.phase s.got s.inbox s.sent) (ho : COpen s.phase) : cmeas s ≤ 117 := by
  have h1 := (h.taken hf hP ho).2.2.1
  obtain ⟨rest, h2⟩ := hc.sent_prefix
  have := congrArg List.length h2
  rw [List.length_append, D.pub_len] at this
  have h3 : clvl s.phase ≤ 1 := by unfold clvl; split <;> omega
  unfold cmeas
  omega

end

/-! ### Executions -/

section
variable {A : Aead} {D : DH} {sk ck : Keys} {fresh : Bytes}

theorem firstSteps_succ {O : Type} (op : Nat → Option O) (n : Nat) : firstSteps op (n + 1) = firstSteps op n ++ (op n).toList := by
  unfold firstSteps
  rw [List.range_succ, List.filterMap_append]
  cases h : op n <;> simp [List.filterMap, h]

theorem mem_firstSteps {O : Type} {op : Nat → Option O} {n : Nat} {o : O} (h : o ∈ firstSteps op n) : ∃ m, op m = some o := by
  obtain ⟨m, -, h⟩ := List.mem_filterMap.1 h
  exact ⟨m, h⟩

theorem Pair.run_append {p : Pair} {ops ops' : List PairOp} :
    Pair.run A D sk ck fresh p (ops ++ ops') = (Pair.run A D sk ck fresh p ops).bind fun p => Pair.run A D sk ck fresh p ops' := by
  induction ops generalizing p with
  | nil => rfl
  | cons op ops ih =>
    simp only [List.cons_append, Pair.run]
    cases p.step A D sk ck fresh op with
    | none => rfl
    | some t => exact ih

theorem pair_prefix {σ : Nat → Pair} {op : Nat → Option PairOp} (h : Execution (Pair.step A D sk ck fresh) (Pair.init D ck) σ op) (n : Nat) :
    Pair.run A D sk ck fresh (Pair.init D ck) (firstSteps op n) = some (σ n) := by
  induction n with
  | zero => rw [h.start]; rfl
  | succ n ih =>
    rw [firstSteps_succ, Pair.run_append, ih]
    have := h.next n
    cases ho : op n with
    | none => rw [ho] at this; simp only at this; rw [this]; rfl
    | some o => rw [ho] at this; simp only at this; simp [Pair.run, this]

/-- What a step of the pair is for the server. -/
theorem pstep_server {p p' : Pair} {op : PairOp} (h : p.step A D sk ck fresh op = some p') :
    (p'.server = p.server ∨ ∃ o, p.server.step (serverPoll A D sk fresh) o = some p'.server) ∧
    ∀ k as, op = .server k as → p.server.step (serverPoll A D sk fresh) (.poll k as) = some p'.server := by
  cases op with
  | server k as =>
    simp only [Pair.step, Option.bind_eq_bind] at h
    obtain ⟨s, h1, h2⟩ := Option.bind_eq_some_iff.1 h
    try dsimp only at h2
    split at h2
    · cases h2; exact ⟨Or.inr ⟨_, h1⟩, by rintro _ _ ⟨⟩; exact h1⟩
    · obtain ⟨c, h3, h4⟩ := Option.bind_eq_some_iff.1 h2
      cases h4; exact ⟨Or.inr ⟨_, h1⟩, by rintro _ _ ⟨⟩; exact h1⟩
  | client k as =>
    simp only [Pair.step, Option.bind_eq_bind] at h
    obtain ⟨c, h1, h2⟩ := Option.bind_eq_some_iff.1 h
    try dsimp only at h2
    split at h2
    · cases h2; exact ⟨Or.inl rfl, by simp⟩
    · obtain ⟨s, h3, h4⟩ := Option.bind_eq_some_iff.1 h2
      cases h4; exact ⟨Or.inr ⟨_, h3⟩, by simp⟩
  | closeServer =>
    simp only [Pair.step, Option.bind_eq_bind] at h
    obtain ⟨c, h1, h2⟩ := Option.bind_eq_some_iff.1 h
    cases h2; exact ⟨Or.inl rfl, by simp⟩
  | closeClient =>
    simp only [Pair.step, Option.bind_eq_bind] at h
    obtain ⟨c, h1, h2⟩ := Option.bind_eq_some_iff.1 h
    cases h2; exact ⟨Or.inr ⟨_, h1⟩, by simp⟩
  | moreServer bs =>
    simp only [Pair.step] at h
    split at h
    · obtain ⟨c, h1, h2⟩ := Option.map_eq_some_iff.1 h
      subst h2; exact ⟨Or.inl rfl, by simp⟩
    · cases h
  | moreClient bs =>
    simp only [Pair.step] at h
    split at h
    · obtain ⟨c, h1, h2⟩ := Option.map_eq_some_iff.1 h
      subst h2; exact ⟨Or.inr ⟨_, h1⟩, by simp⟩
    · cases h

/-- What a step of the pair is for the client. -/
theorem pstep_client {p p' : Pair} {op : PairOp} (h : p.step A D sk ck fresh op = some p') :
    (p'.client = p.client ∨ ∃ o, p.client.step (clientPoll A D ck) o = some p'.client) ∧
    ∀ k as, op = .client k as → p.client.step (clientPoll A D ck) (.poll k as) = some p'.client := by
  cases op with
  | client k as =>
    simp only [Pair.step, Option.bind_eq_bind] at h
    obtain ⟨s, h1, h2⟩ := Option.bind_eq_some_iff.1 h
    try dsimp only at h2
    split at h2
    · cases h2; exact ⟨Or.inr ⟨_, h1⟩, by rintro _ _ ⟨⟩; exact h1⟩
    · obtain ⟨c, h3, h4⟩ := Option.bind_eq_some_iff.1 h2
      cases h4; exact ⟨Or.inr ⟨_, h1⟩, by rintro _ _ ⟨⟩; exact h1⟩
  | server k as =>
    simp only [Pair.step, Option.bind_eq_bind] at h
    obtain ⟨c, h1, h2⟩ := Option.bind_eq_some_iff.1 h
    try dsimp only at h2
    split at h2
    · cases h2; exact ⟨Or.inl rfl, by simp⟩
    · obtain ⟨s, h3, h4⟩ := Option.bind_eq_some_iff.1 h2
      cases h4; exact ⟨Or.inr ⟨_, h3⟩, by simp⟩
  | closeServer =>
    simp only [Pair.step, Option.bind_eq_bind] at h
    obtain ⟨c, h1, h2⟩ := Option.bind_eq_some_iff.1 h
    cases h2; exact ⟨Or.inr ⟨_, h1⟩, by simp⟩
  | closeClient =>
    simp only [Pair.step, Option.bind_eq_bind] at h
    obtain ⟨c, h1, h2⟩ := Option.bind_eq_some_iff.1 h
    cases h2; exact ⟨Or.inl rfl, by simp⟩
  | moreServer bs =>
    simp only [Pair.step] at h
    split at h
    · obtain ⟨c, h1, h2⟩ := Option.map_eq_some_iff.1 h
      subst h2; exact ⟨Or.inr ⟨_, h1⟩, by simp⟩
    · cases h
  | moreClient bs =>
    simp only [Pair.step] at h
    split at h
    · obtain ⟨c, h1, h2⟩ := Option.map_eq_some_iff.1 h
      subst h2; exact ⟨Or.inl rfl, by simp⟩
    · cases h

theorem sdone_step {s s' : Side SPhase} {op : Op} {st : CryptStream} (hs : s.step (serverPoll A D sk fresh) op = some s') (h : s.phase = .done st) : s'.phase = .done st := by
  cases op with
  | arrive bs => simp only [Side.step] at hs; split at hs <;> cases hs; exact h
  | close => cases hs; exact h
  | poll k as => cases hs; simp only [h, serverPoll]

theorem cdone_step {s s' : Side CPhase} {op : Op} {st : CryptStream} (hs : s.step (clientPoll A D ck) op = some s') (h : s.phase = .done st) : s'.phase = .done st := by
  cases op with
  | arrive bs => simp only [Side.step] at hs; split at hs <;> cases hs; exact h
  | close => cases hs; exact h
  | poll k as => cases hs; simp only [h, clientPoll]

end
end Bromine.Handshake
