import Verif.Lemmas.CryptErr
/-
Calls of the encrypted write half come to their end, also after errors.
-/
namespace Bromine.CryptBytes
open Bromine Bromine.Spec CryptIO CryptWire

theorem futWrite_err {ws : WriteStream} {rem : Bytes} {len : Nat} {as : List IoAns} {e : IoErr} (h : (pollFutWrite ws rem len as).poll = .ready (.error e)) : Bad as := by
  unfold pollFutWrite at h
  generalize hw : pollWriteAll rem as = v at h
  obtain ⟨r, w, rem', as'⟩ := v
  obtain ⟨-, -, h3, -⟩ := pollWriteAll_spec hw
  rcases r with _ | _ | _
  · cases h
  · exact h3 _ rfl
  · cases h

theorem futFlush_err {ws : WriteStream} {as : List IoAns} {e : IoErr} (h : (pollFutFlush ws as).poll = .ready (.error e)) : Bad as := by
  unfold pollFutFlush at h
  rcases as with _ | ⟨_ | _ | _, _⟩
  · cases h
  · cases h
  · cases h
  · exact .inl ⟨_, .head _⟩

theorem flushWrite_err {ws : WriteStream} {rem : Bytes} {as : List IoAns} {e : IoErr} (h : (pollFlushWrite ws rem as).poll = .ready (.error e)) : Bad as := by
  unfold pollFlushWrite at h
  generalize hw : pollWriteAll rem as = v at h
  obtain ⟨r, w, rem', as'⟩ := v
  obtain ⟨-, -, h3, h4⟩ := pollWriteAll_spec hw
  rcases r with _ | _ | _
  · cases h
  · exact h3 _ rfl
  · exact (futFlush_err h).mono h4

/-- A poll gives an error only if the transport does. -/
theorem poll_err {A : Aead} {key : Bytes} {s : Caller} {c : Call} {as : List IoAns} (h : CInv A key s) (hc : SmallCall c) (hcur : s.cur = none ∨ s.cur = some c) {e : IoErr} :
    (∀ buf, c = .write buf → (s.ws.pollWrite A buf as).poll = .ready (.error e) → Bad as) ∧ (c = .flush → (s.ws.pollFlush A as).poll = .ready (.error e) → Bad as) := by
  obtain ⟨hq, h⟩ := h
  constructor
  · rintro buf rfl he
    unfold WriteStream.pollWrite at he
    rcases h with ⟨h0, ps, x, b, h1, h2, h3, h4, h5, h6, h7⟩ | ⟨x, rem, h1, ⟨buf', h2, h3⟩ | ⟨h2, h3⟩⟩ | ⟨x, -, h2, h3⟩
    · rw [h1] at he
      simp only at he
      have hc' : buf.length + 1024 + 16 < 2 ^ 32 := hc
      have h2' : b.length < 1024 := h2
      have hlen : (b ++ buf).length + 16 < 2 ^ 32 := by rw [List.length_append]; omega
      by_cases hle : WRITE_BUF_SIZE ≤ (b ++ buf).length
      · rw [if_pos hle] at he
        have htake : (b ++ buf).take u32Max = b ++ buf := List.take_of_length_le (by unfold u32Max; omega)
        rw [htake] at he
        obtain ⟨c, x', e1, e2, e3⟩ := encrypt_one h4 hlen
        simp only [Bool.and_self, if_true] at he
        rw [e1] at he
        exact futWrite_err he
      · rw [if_neg hle] at he
        cases he
    · rw [h3] at he
      exact futWrite_err he
    · rw [h2] at hcur; rcases hcur with h | h <;> cases h
    · rw [h2] at hcur; rcases hcur with h | h <;> cases h
  · rintro rfl he
    unfold WriteStream.pollFlush at he
    rcases h with ⟨h0, ps, x, b, h1, h2, h3, h4, h5, h6, h7⟩ | ⟨x, rem, h1, ⟨buf', h2, h3⟩ | ⟨h2, h3⟩⟩ | ⟨x, -, h2, h3⟩
    · rw [h1] at he
      have h2' : b.length < 1024 := h2
      simp only at he
      have htake : b.take u32Max = b := List.take_of_length_le (by unfold u32Max; omega)
      rw [htake] at he
      simp only [Bool.and_self, if_true] at he
      by_cases hlt : 0 < b.length
      · rw [if_pos hlt] at he
        obtain ⟨c, x', e1, e2, e3⟩ := encrypt_one h4 (m := b) (by omega)
        rw [e1] at he
        exact flushWrite_err he
      · rw [if_neg hlt] at he
        exact futFlush_err he
    · rw [h2] at hcur; rcases hcur with h | h <;> cases h
    · rw [h3] at he
      exact flushWrite_err he
    · rw [h3] at he
      exact futFlush_err he

/-- What a poll does: the call goes on, or it returns, with an error only if the transport gives one. -/
theorem poll_returns {A : Aead} {key : Bytes} {s : Caller} {c : Call} {as : List IoAns} (h : CInv A key s) (hc : SmallCall c) (hcur : s.cur = none ∨ s.cur = some c) :
    ∃ s', s.poll A c as = some s' ∧ CInv A key s' ∧
      ((s'.cur = some c ∧ s'.returned = s.returned) ∨ (s'.cur = none ∧ ∃ e, s'.returned = s.returned ++ [(c, e)] ∧ (e ≠ none → Bad as))) := by
  have hp : ∃ s', s.poll A c as = some s' ∧ (s'.panicked = true ∨ (s'.cur = some c ∧ s'.returned = s.returned) ∨ (s'.cur = none ∧ ∃ e, s'.returned = s.returned ++ [(c, e)] ∧ (e ≠ none → Bad as))) := by
    unfold Caller.poll
    rw [if_neg (by rw [h.1]; rcases hcur with h | h <;> simp [h])]
    cases c with
    | write buf =>
      dsimp only
      have := fun e => (poll_err (as := as) (e := e) h hc hcur).1 buf rfl
      generalize s.ws.pollWrite A buf as = r at this
      obtain ⟨p, ws, w, rest⟩ := r
      rcases p with (e | n) | _ | _
      · exact ⟨_, rfl, .inr (.inr ⟨rfl, some e, rfl, fun _ => this e rfl⟩)⟩
      · exact ⟨_, rfl, .inr (.inr ⟨rfl, none, rfl, fun h => absurd rfl h⟩)⟩
      · exact ⟨_, rfl, .inr (.inl ⟨rfl, rfl⟩)⟩
      · exact ⟨_, rfl, .inl rfl⟩
    | flush =>
      dsimp only
      have := fun e => (poll_err (as := as) (e := e) h hc hcur).2 rfl
      generalize s.ws.pollFlush A as = r at this
      obtain ⟨p, ws, w, rest⟩ := r
      rcases p with (e | n) | _ | _
      · exact ⟨_, rfl, .inr (.inr ⟨rfl, some e, rfl, fun _ => this e rfl⟩)⟩
      · exact ⟨_, rfl, .inr (.inr ⟨rfl, none, rfl, fun h => absurd rfl h⟩)⟩
      · exact ⟨_, rfl, .inr (.inl ⟨rfl, rfl⟩)⟩
      · exact ⟨_, rfl, .inl rfl⟩
  obtain ⟨s', h1, h2⟩ := hp
  have h3 := cinv_poll h hc h1
  refine ⟨s', h1, h3, ?_⟩
  rcases h2 with h2 | h2
  · rw [h3.1] at h2; cases h2
  · exact h2

end Bromine.CryptBytes
