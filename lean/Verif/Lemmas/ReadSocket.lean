import Verif.Model.Layers
/- Reading from a socket, poll by poll and as one source of bytes. -/
namespace Bromine.Layers
open Bromine CryptIO

/-- A socket read by the futures of tokio, poll by poll, is the plain transport of Model/Event.lean. -/
theorem drive_socket (int : Bool) (n : Nat) (closed : Bool) : ∀ (m : Nat) (got : Bytes) (cs : List Chunk) (fuel : Nat), cs.length + (n - got.length) ≤ m → cs.length < fuel →
    Layers.drive socketR int n fuel got { chunks := cs, closed := closed } =
      (pollExact closed (n - got.length) got cs).map fun (b, cs) => (b, { chunks := cs, closed := closed }) := by
  intro m
  induction m with
  | zero =>
    intro got cs fuel hm hf
    obtain ⟨fuel, rfl⟩ : ∃ f, fuel = f + 1 := ⟨fuel - 1, by omega⟩
    have : n - got.length = 0 := by omega
    rw [this]
    unfold Layers.drive Layers.fill
    rw [if_pos (by omega)]
    simp only [pollExact, Outcome.map, Outcome.bind]
  | succ m ih =>
    intro got cs fuel hm hf
    obtain ⟨fuel, rfl⟩ : ∃ f, fuel = f + 1 := ⟨fuel - 1, by omega⟩
    by_cases hn : n ≤ got.length
    · have : n - got.length = 0 := by omega
      rw [this]
      unfold Layers.drive Layers.fill
      rw [if_pos hn]
      simp only [pollExact, Outcome.map, Outcome.bind]
    · obtain ⟨k, hk⟩ : ∃ k, n - got.length = k + 1 := ⟨n - got.length - 1, by omega⟩
      cases cs with
      | nil =>
        rw [hk]
        unfold Layers.drive Layers.fill
        rw [if_neg hn]
        cases closed with
        | true => simp [socketR, pollExact, Outcome.map, Outcome.bind]
        | false =>
          simp only [socketR, pollExact, Outcome.map, Outcome.bind]
          simp only [Bool.false_eq_true, if_false]
          have h0 : ∀ (fuel : Nat) (got : Bytes), got.length < n → Layers.drive socketR int n fuel got { chunks := [], closed := false } = .hang := by
            intro fuel
            induction fuel with
            | zero => intro got _; rfl
            | succ fuel ihf =>
              intro got hg
              unfold Layers.drive Layers.fill
              rw [if_neg (by omega)]
              simp only [socketR]
              simp only [Bool.false_eq_true, if_false]
              apply ihf
              have : (if int then got else got ++ []) = got := by split <;> simp
              rw [this]
              exact hg
          have e : (if int then got else got ++ []) = got := by split <;> simp
          simp only [e]
          exact h0 fuel got (by omega)
      | cons c cs =>
        cases c with
        | pending =>
          have hi := ih got cs fuel (by simp at hm; omega) (by simpa using hf)
          rw [hk] at hi ⊢
          unfold Layers.drive Layers.fill
          rw [if_neg hn]
          simp only [socketR, pollExact]
          have : (if int then got else got ++ []) = got := by split <;> simp
          simp only [this]
          exact hi
        | data b bs =>
          by_cases hl : k + 1 ≤ (b :: bs).length
          · rw [hk]
            unfold Layers.drive Layers.fill
            rw [if_neg hn]
            simp only [socketR, hk, pollExact, if_pos hl]
            obtain ⟨x, xs, hx⟩ : ∃ x xs, (b :: bs).take (k + 1) = x :: xs := ⟨b, bs.take k, rfl⟩
            rw [hx]
            have hlen : (x :: xs).length = k + 1 := by rw [← hx, List.length_take]; omega
            dsimp only
            unfold Layers.fill
            rw [if_pos (by rw [List.length_append, hlen]; omega)]
            simp [Outcome.map, Outcome.bind]
          · have hi := ih (got ++ b :: bs) cs (fuel + 1) (by simp at hm ⊢; omega) (by simp at hf; omega)
            have e1 : n - (got ++ b :: bs).length = k + 1 - (b :: bs).length := by simp; omega
            rw [e1] at hi
            have e2 : (b :: bs).take (k + 1) = b :: bs := List.take_of_length_le (by omega)
            have e3 : (b :: bs).drop (k + 1) = [] := List.drop_of_length_le (by omega)
            rw [hk]
            unfold Layers.drive Layers.fill
            rw [if_neg hn]
            have e4 : socketR.pollRead { chunks := .data b bs :: cs, closed := closed } (n - got.length) = (.ready (.ok ()), b :: bs, { chunks := cs, closed := closed }) := by
              simp only [socketR, hk, e2, e3, pushRest]
            rw [e4]
            simp only [pollExact, if_neg hl]
            rw [← hi]
            rfl

theorem source_socket : source socketR = scriptSource := by
  unfold source scriptSource
  congr 1 <;> (funext n s; exact drive_socket _ n s.closed _ [] s.chunks _ (Nat.le_refl _) (Nat.lt_succ_self _))

end Bromine.Layers
