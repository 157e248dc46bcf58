import Verif.Model.LayerShutdown
import Verif.Spec.LayerShutdown
import Verif.Lemmas.LayerLink
/-
Shutting down encrypted layers.
-/
namespace Bromine.Layers
open Bromine CryptIO

/-- Nothing is left to be sent; flushes may have begun. -/
def Drained : (n : Nat) → WState n → Prop
  | 0, _ => True
  | n + 1, (ws, t) => (ws.buffer = [] ∧ ws.futWrite = none ∧ ws.futShutdown = false ∧ ((ws.inner = true ∧ ws.cipher = true ∧ ws.futFlush = none) ∨ ws.futFlush = some .flushing)) ∧ Drained n t

/-- The answer of a socket to a flush or shutdown. -/
def answer : Option IoAns → Poll Unit
  | none => .pending true
  | some .pending => .pending true
  | some (.fail e) => .ready (.error e)
  | some (.ready _) => .ready (.ok ())

theorem drained_flush (A : Aead) : ∀ (n : Nat) (w : WState n), Drained n w →
    ((layersW A n).pollFlush w).1 = answer ((layersW A n).base w).answers.head? ∧ Drained n ((layersW A n).pollFlush w).2 ∧
    ((layersW A n).base ((layersW A n).pollFlush w).2).wire = ((layersW A n).base w).wire := by
  intro n
  induction n with
  | zero =>
    rintro ⟨as, wire⟩ -
    show (socket.pollFlush _).1 = _ ∧ True ∧ (socket.pollFlush _).2.wire = _
    cases as with
    | nil => exact ⟨rfl, trivial, rfl⟩
    | cons a as => cases a <;> exact ⟨rfl, trivial, rfl⟩
  | succ n ih =>
    rintro ⟨ws, t⟩ ⟨⟨h1, h2, h3, h4⟩, ht⟩
    obtain ⟨i1, i2, i3⟩ := ih t ht
    have key : ∀ ws' : WriteStream, ws'.buffer = [] → ws'.futWrite = none → ws'.futShutdown = false →
        (pollFutFlush (layersW A n) ws' t).1 = answer ((layersW A n).base t).answers.head? ∧ Drained (n + 1) (pollFutFlush (layersW A n) ws' t).2 ∧
        ((layersW A n).base (pollFutFlush (layersW A n) ws' t).2.2).wire = ((layersW A n).base t).wire := by
      intro ws' g1 g2 g3
      unfold pollFutFlush
      generalize hx : (layersW A n).pollFlush t = x at i1 i2 i3
      obtain ⟨p, t'⟩ := x
      dsimp only at i1 i2 i3
      subst i1
      generalize ((layersW A n).base t).answers.head? = a
      match a with
      | none => exact ⟨rfl, ⟨⟨g1, g2, g3, .inr rfl⟩, i2⟩, i3⟩
      | some .pending => exact ⟨rfl, ⟨⟨g1, g2, g3, .inr rfl⟩, i2⟩, i3⟩
      | some (.fail e) => exact ⟨rfl, ⟨⟨g1, g2, g3, .inl ⟨rfl, rfl, rfl⟩⟩, i2⟩, i3⟩
      | some (.ready k) => exact ⟨rfl, ⟨⟨g1, g2, g3, .inl ⟨rfl, rfl, rfl⟩⟩, i2⟩, i3⟩
    show (pollFlush (layersW A n) A (ws, t)).1 = answer ((layersW A n).base t).answers.head? ∧ Drained (n + 1) (pollFlush (layersW A n) A (ws, t)).2 ∧
      ((layersW A n).base (pollFlush (layersW A n) A (ws, t)).2.2).wire = ((layersW A n).base t).wire
    unfold pollFlush
    rcases h4 with ⟨g1, g2, g3⟩ | g
    · simp only [g3, g1, g2, h1, List.take_nil, List.drop_nil, Bool.and_self, if_true, List.length_nil, Nat.lt_irrefl, if_false]
      exact key _ rfl h2 h3
    · simp only [g]
      exact key _ h1 h2 h3

/-- The flush is done: the transport is there. -/
theorem drained_inner (A : Aead) (n : Nat) (ws : WriteStream) (t : WState n) (h : Drained (n + 1) (ws, t)) :
    (pollFlush (layersW A n) A (ws, t)).1 = .ready (.ok ()) → (pollFlush (layersW A n) A (ws, t)).2.1.inner = true ∧ (pollFlush (layersW A n) A (ws, t)).2.1.futFlush = none := by
  obtain ⟨⟨h1, h2, h3, h4⟩, ht⟩ := h
  have key : ∀ ws' : WriteStream, (pollFutFlush (layersW A n) ws' t).1 = .ready (.ok ()) →
      (pollFutFlush (layersW A n) ws' t).2.1.inner = true ∧ (pollFutFlush (layersW A n) ws' t).2.1.futFlush = none := by
    intro ws' h
    unfold pollFutFlush at h ⊢
    generalize (layersW A n).pollFlush t = x at h
    obtain ⟨p, t'⟩ := x
    cases p with
    | ready r => exact ⟨rfl, rfl⟩
    | pending => cases h
    | panic => cases h
  unfold pollFlush
  rcases h4 with ⟨g1, g2, g3⟩ | g
  · simp only [g3, g1, g2, h1, List.take_nil, List.drop_nil, Bool.and_self, if_true, List.length_nil, Nat.lt_irrefl, if_false]
    exact key _
  · simp only [g]
    exact key _

/-- The transport of the layer has been taken for the shutdown. -/
def Taken (ws : WriteStream) : Prop := ws.inner = false ∧ ws.futWrite = none ∧ ws.futFlush = none

/-- A shutdown has begun; `k` layers have not been flushed for it. -/
def Closing : (n k : Nat) → WState n → Prop
  | 0, k, _ => k = 0
  | n + 1, k, (ws, t) => (k = n + 1 ∧ Drained (n + 1) (ws, t)) ∨ (k ≤ n ∧ Taken ws ∧ ws.futShutdown = true ∧ Closing n k t)

theorem closing_le : ∀ {n k : Nat} {w : WState n}, Closing n k w → k ≤ n
  | 0, _, _, h => Nat.le_of_eq h
  | n + 1, _, (_, _), h => by rcases h with ⟨h, -⟩ | ⟨h, -⟩ <;> omega

theorem closing_of_drained : ∀ {n : Nat} {w : WState n}, Drained n w → Closing n n w
  | 0, _, _ => rfl
  | _ + 1, (_, _), h => .inl ⟨rfl, h⟩

/-- The result of a poll. -/
def stepResult (k : Nat) (a : Option IoAns) : Poll Unit × Bool :=
  match a with
  | none => (.pending true, k == 0)
  | some .pending => (.pending true, k == 0)
  | some (.fail e) => (.ready (.error e), k == 0)
  | some (.ready _) =>
    match k with
    | 0 => (.ready (.ok ()), true)
    | _ + 1 => (.pending false, false)

/-- The shutdown is over. -/
def Over : (n : Nat) → WState n → Prop
  | 0, _ => True
  | _ + 1, (ws, _) => Taken ws ∧ ws.futShutdown = false

/-- How far it is after a poll. -/
def stepClosing (n k : Nat) (a : Option IoAns) (w : WState n) : Prop :=
  match a with
  | none => Closing n k w
  | some .pending => Closing n k w
  | some (.fail _) => if k = n then Closing n n w else Over n w
  | some (.ready _) =>
    match k with
    | 0 => Over n w
    | k + 1 => Closing n k w

theorem pollShutdown_flush (A : Aead) (n : Nat) (ws : WriteStream) (t : WState n) (hs : ws.futShutdown = false) :
    pollShutdown A (n + 1) (ws, t) = match pollFlush (layersW A n) A (ws, t) with
      | (.ready (.ok _), ws, t) => if ws.inner then (.pending false, false, ({ ws with inner := false, futShutdown := true }, t)) else (.panic, false, (ws, t))
      | (.ready (.error e), ws, t) => (.ready (.error e), false, (ws, t))
      | (.pending w, ws, t) => (.pending w, false, (ws, t))
      | (.panic, ws, t) => (.panic, false, (ws, t)) := by
  rw [pollShutdown, if_neg (by simp [hs])]
  rfl

theorem pollShutdown_fut (A : Aead) (n : Nat) (ws : WriteStream) (t : WState n) (hs : ws.futShutdown = true) :
    pollShutdown A (n + 1) (ws, t) = match pollShutdown A n t with
      | (.ready r, b, t) => (.ready r, b, ({ ws with futShutdown := false }, t))
      | (.pending w, b, t) => (.pending w, b, (ws, t))
      | (.panic, b, t) => (.panic, b, (ws, t)) := by
  rw [pollShutdown, if_pos hs]
  rfl

theorem closing_poll (A : Aead) : ∀ (n k : Nat) (w : WState n), Closing n k w →
    ((pollShutdown A n w).1, (pollShutdown A n w).2.1) = stepResult k ((layersW A n).base w).answers.head? ∧
    stepClosing n k ((layersW A n).base w).answers.head? (pollShutdown A n w).2.2 ∧
    ((layersW A n).base (pollShutdown A n w).2.2).wire = ((layersW A n).base w).wire := by
  intro n
  induction n with
  | zero =>
    rintro k ⟨as, wire⟩ rfl
    match as with
    | [] => exact ⟨rfl, rfl, rfl⟩
    | .pending :: as => exact ⟨rfl, rfl, rfl⟩
    | .fail e :: as => exact ⟨rfl, rfl, rfl⟩
    | .ready m :: as => exact ⟨rfl, trivial, rfl⟩
  | succ n ih =>
    rintro k ⟨ws, t⟩ (⟨rfl, hd⟩ | ⟨hk, htk, hs, hc⟩)
    · obtain ⟨f1, f2, f3⟩ := drained_flush A (n + 1) (ws, t) hd
      have f4 := drained_inner A n ws t hd
      have hs : ws.futShutdown = false := hd.1.2.2.1
      change (pollFlush (layersW A n) A (ws, t)).1 = answer ((layersW A n).base t).answers.head? at f1
      change Drained (n + 1) (pollFlush (layersW A n) A (ws, t)).2 at f2
      change ((layersW A n).base (pollFlush (layersW A n) A (ws, t)).2.2).wire = ((layersW A n).base t).wire at f3
      rw [pollShutdown_flush A n ws t hs]
      show _ ∧ stepClosing (n + 1) (n + 1) ((layersW A n).base t).answers.head? _ ∧ _ = ((layersW A n).base t).wire
      change (_, _) = stepResult (n + 1) ((layersW A n).base t).answers.head? ∧ _
      generalize pollFlush (layersW A n) A (ws, t) = x at f1 f2 f3 f4
      obtain ⟨p, ws', t'⟩ := x
      dsimp only at f1 f2 f3 f4
      generalize ((layersW A n).base t).answers.head? = a at f1
      subst f1
      match a with
      | none => exact ⟨rfl, .inl ⟨rfl, f2⟩, f3⟩
      | some .pending => exact ⟨rfl, .inl ⟨rfl, f2⟩, f3⟩
      | some (.fail e) => exact ⟨rfl, by rw [stepClosing, if_pos rfl]; exact .inl ⟨rfl, f2⟩, f3⟩
      | some (.ready m) =>
        obtain ⟨g1, g2⟩ := f4 rfl
        simp only [answer, g1, if_true]
        exact ⟨rfl, .inr ⟨Nat.le_refl _, ⟨rfl, f2.1.2.1, g2⟩, rfl, closing_of_drained f2.2⟩, f3⟩
    · obtain ⟨f1, f2, f3⟩ := ih k t hc
      rw [pollShutdown_fut A n ws t hs]
      show _ ∧ stepClosing (n + 1) k ((layersW A n).base t).answers.head? _ ∧ _ = ((layersW A n).base t).wire
      change (_, _) = stepResult k ((layersW A n).base t).answers.head? ∧ _
      generalize pollShutdown A n t = x at f1 f2 f3
      obtain ⟨p, b, t'⟩ := x
      dsimp only at f1 f2 f3
      generalize ((layersW A n).base t).answers.head? = a at f1 f2
      match a, k with
      | none, k => cases f1; exact ⟨rfl, .inr ⟨hk, htk, hs, f2⟩, f3⟩
      | some .pending, k => cases f1; exact ⟨rfl, .inr ⟨hk, htk, hs, f2⟩, f3⟩
      | some (.fail e), k => cases f1; exact ⟨rfl, by rw [stepClosing, if_neg (by omega)]; exact ⟨htk, rfl⟩, f3⟩
      | some (.ready m), 0 => cases f1; exact ⟨rfl, ⟨htk, rfl⟩, f3⟩
      | some (.ready m), k + 1 => cases f1; exact ⟨rfl, .inr ⟨by omega, htk, hs, f2⟩, f3⟩

/-- After the shutdown, or when its first flush is done. -/
def Late (n : Nat) (w : WState (n + 1)) : Prop := Over (n + 1) w ∨ ∃ k, k ≤ n ∧ Closing (n + 1) k w

theorem taken_flush (A : Aead) (n : Nat) (ws : WriteStream) (t : WState n) (h : Taken ws) :
    pollFlush (layersW A n) A (ws, t) = (.panic, { ws with buffer := ws.buffer.drop u32Max }, t) := by
  obtain ⟨h1, h2, h3⟩ := h
  simp [pollFlush, h3, h1]

theorem taken_write (A : Aead) (n : Nat) (ws : WriteStream) (t : WState n) (buf : Bytes) (h : Taken ws) :
    pollWrite (layersW A n) A (ws, t) buf = if ws.buffer.length + buf.length < 1024 then (.ready (.ok buf.length), { ws with buffer := ws.buffer ++ buf }, t)
      else (.panic, { ws with buffer := (ws.buffer ++ buf).drop u32Max }, t) := by
  obtain ⟨h1, h2, h3⟩ := h
  unfold pollWrite
  simp only [h2]
  by_cases hl : ws.buffer.length + buf.length < 1024
  · rw [if_pos hl, if_neg (by simp [WRITE_BUF_SIZE]; omega)]
  · rw [if_neg hl, if_pos (by simp [WRITE_BUF_SIZE]; omega)]
    simp [h1]

theorem over_shutdown (A : Aead) (n : Nat) (w : WState (n + 1)) (h : Over (n + 1) w) :
    (pollShutdown A (n + 1) w).1 = .panic ∧ (pollShutdown A (n + 1) w).2.1 = false ∧ Over (n + 1) (pollShutdown A (n + 1) w).2.2 ∧
    (layersW A (n + 1)).base (pollShutdown A (n + 1) w).2.2 = (layersW A (n + 1)).base w := by
  obtain ⟨ws, t⟩ := w
  obtain ⟨ht, hs⟩ := h
  have hu : pollShutdown A (n + 1) (ws, t) = (.panic, false, ({ ws with buffer := ws.buffer.drop u32Max }, t)) := by
    rw [pollShutdown, if_neg (by simp [hs])]
    simp only [taken_flush A n ws t ht]
    rfl
  rw [hu]
  exact ⟨rfl, rfl, ⟨⟨ht.1, ht.2.1, ht.2.2⟩, hs⟩, rfl⟩

theorem drained_set (A : Aead) : ∀ {n : Nat} {w : WState n} (b : Socket), Drained n w → Drained n ((layersW A n).setBase w b)
  | 0, _, _, _ => trivial
  | _ + 1, (_, _), b, h => ⟨h.1, drained_set A b h.2⟩

theorem closing_set (A : Aead) : ∀ {n k : Nat} {w : WState n} (b : Socket), Closing n k w → Closing n k ((layersW A n).setBase w b)
  | 0, _, _, _, h => h
  | _ + 1, _, (_, _), b, .inl h => .inl ⟨h.1, drained_set A b h.2⟩
  | _ + 1, _, (_, _), b, .inr ⟨h1, h2, h3, h4⟩ => .inr ⟨h1, h2, h3, closing_set A b h4⟩

theorem over_set (A : Aead) : ∀ {n : Nat} {w : WState n} (b : Socket), Over n w → Over n ((layersW A n).setBase w b)
  | 0, _, _, _ => trivial
  | _ + 1, (_, _), _, h => h

theorem base_setW (A : Aead) : ∀ (n : Nat) (w : WState n) (b : Socket), (layersW A n).base ((layersW A n).setBase w b) = b
  | 0, _, _ => rfl
  | n + 1, w, b => base_setW A n w.2 b

theorem base_answering (A : Aead) (n : Nat) (w : WState n) (as : List IoAns) : (layersW A n).base (answering A n w as) = { (layersW A n).base w with answers := as } :=
  base_setW A n w _

/-- A sequence of polls. -/
theorem closing_polls (A : Aead) (n : Nat) : ∀ (ps : List (List IoAns)) (w : WState (n + 1)) (o : Option Nat),
    (∀ k, o = some k → Closing (n + 1) k w) → (o = none → Over (n + 1) w) →
    (shutdownPolls A (n + 1) w ps).1 = Spec.shutdownResults (n + 1) o ps ∧
    ((layersW A (n + 1)).base (shutdownPolls A (n + 1) w ps).2).wire = ((layersW A (n + 1)).base w).wire ∧
    (o ≠ some (n + 1) ∨ (∃ p ∈ (shutdownPolls A (n + 1) w ps).1, p.1 = .pending false) → Late n (shutdownPolls A (n + 1) w ps).2) := by
  intro ps
  induction ps with
  | nil =>
    intro w o h1 h2
    refine ⟨rfl, rfl, ?_⟩
    rintro (h | ⟨p, hp, -⟩)
    · cases o with
      | none => exact .inl (h2 rfl)
      | some k => exact .inr ⟨k, by have := closing_le (h1 k rfl); have : k ≠ n + 1 := fun e => h (by rw [e]); omega, h1 k rfl⟩
    · cases hp
  | cons as ps ih =>
    intro w o h1 h2
    have hb := base_answering A (n + 1) w as
    simp only [shutdownPolls]
    cases o with
    | none =>
      have ho := over_set A { (layersW A (n + 1)).base w with answers := as } (h2 rfl)
      obtain ⟨f1, f2, f3, f4⟩ := over_shutdown A n _ ho
      change (pollShutdown A (n + 1) (answering A (n + 1) w as)).1 = _ at f1
      change (pollShutdown A (n + 1) (answering A (n + 1) w as)).2.1 = _ at f2
      change Over (n + 1) (pollShutdown A (n + 1) (answering A (n + 1) w as)).2.2 at f3
      change _ = (layersW A (n + 1)).base (answering A (n + 1) w as) at f4
      obtain ⟨i1, i2, i3⟩ := ih (pollShutdown A (n + 1) (answering A (n + 1) w as)).2.2 none (fun k hk => by cases hk) (fun _ => f3)
      refine ⟨?_, ?_, fun _ => i3 (.inl (by simp))⟩
      · rw [f1, f2, i1]; rfl
      · rw [i2]
        exact (congrArg Socket.wire f4).trans (congrArg Socket.wire hb :)
    | some k =>
      have hc : Closing (n + 1) k (answering A (n + 1) w as) := closing_set A _ (h1 k rfl)
      obtain ⟨f1, f2, f3⟩ := closing_poll A (n + 1) k _ hc
      rw [hb] at f1 f2 f3
      dsimp only at f1 f2 f3
      have hk := closing_le hc
      generalize pollShutdown A (n + 1) (answering A (n + 1) w as) = x at f1 f2 f3
      obtain ⟨p, b, w'⟩ := x
      dsimp only at f1 f2 f3 ⊢
      have hd : as.head? = none ∨ as.head? = some .pending ∨ (∃ e, as.head? = some (.fail e)) ∨ ∃ m, as.head? = some (.ready m) := by
        cases as with
        | nil => exact .inl rfl
        | cons a as => cases a <;> simp
      rcases hd with h | h | ⟨e, h⟩ | ⟨m, h⟩
      · rw [h] at f1 f2
        cases f1
        obtain ⟨i1, i2, i3⟩ := ih w' (some k) (fun _ e => by cases e; exact f2) (fun e => by cases e)
        refine ⟨by simp only [i1, Spec.shutdownResults, h], i2.trans f3, fun hl => i3 ?_⟩
        rcases hl with hl | ⟨p, hp, hpp⟩
        · exact .inl hl
        · rcases List.mem_cons.mp hp with rfl | hp
          · cases hpp
          · exact .inr ⟨p, hp, hpp⟩
      · rw [h] at f1 f2
        cases f1
        obtain ⟨i1, i2, i3⟩ := ih w' (some k) (fun _ e => by cases e; exact f2) (fun e => by cases e)
        refine ⟨by simp only [i1, Spec.shutdownResults, h], i2.trans f3, fun hl => i3 ?_⟩
        rcases hl with hl | ⟨p, hp, hpp⟩
        · exact .inl hl
        · rcases List.mem_cons.mp hp with rfl | hp
          · cases hpp
          · exact .inr ⟨p, hp, hpp⟩
      · rw [h] at f1 f2
        cases f1
        by_cases hkn : k = n + 1
        · subst hkn
          rw [stepClosing, if_pos rfl] at f2
          obtain ⟨i1, i2, i3⟩ := ih w' (some (n + 1)) (fun _ e => by cases e; exact f2) (fun e => by cases e)
          refine ⟨by simp [i1, Spec.shutdownResults, h], i2.trans f3, fun hl => i3 ?_⟩
          rcases hl with hl | ⟨p, hp, hpp⟩
          · exact .inl hl
          · rcases List.mem_cons.mp hp with rfl | hp
            · cases hpp
            · exact .inr ⟨p, hp, hpp⟩
        · rw [stepClosing, if_neg hkn] at f2
          obtain ⟨i1, i2, i3⟩ := ih w' none (fun _ e => by cases e) (fun _ => f2)
          exact ⟨by simp [i1, Spec.shutdownResults, h, hkn], i2.trans f3, fun _ => i3 (.inl (by simp))⟩
      · rw [h] at f1 f2
        cases k with
        | zero =>
          cases f1
          obtain ⟨i1, i2, i3⟩ := ih w' none (fun _ e => by cases e) (fun _ => f2)
          exact ⟨by simp only [i1, Spec.shutdownResults, h], i2.trans f3, fun _ => i3 (.inl (by simp))⟩
        | succ k =>
          cases f1
          obtain ⟨i1, i2, i3⟩ := ih w' (some k) (fun _ e => by cases e; exact f2) (fun e => by cases e)
          exact ⟨by simp only [i1, Spec.shutdownResults, h], i2.trans f3, fun _ => i3 (.inl (by intro e; cases e; omega))⟩

/-- Nothing is sent any more. -/
theorem late_apply (A : Aead) (n : Nat) (w : WState (n + 1)) (h : Late n w) (o : WOp) :
    Late n (applyW A (n + 1) w o) ∧ ((layersW A (n + 1)).base (applyW A (n + 1) w o)).wire = ((layersW A (n + 1)).base w).wire := by
  have hset : ∀ as, Late n (answering A (n + 1) w as) := fun as =>
    h.imp (fun h => over_set A _ h) (fun ⟨k, hk, hc⟩ => ⟨k, hk, closing_set A _ hc⟩)
  have htaken : ∀ x : WState (n + 1), Late n x → Taken x.1 ∧ ∀ ws, Taken ws → ws.futShutdown = x.1.futShutdown → Late n (ws, x.2) := by
    rintro ⟨xs, t⟩ (⟨h1, h2⟩ | ⟨k, hk, h | ⟨-, h1, h2, h3⟩⟩)
    · exact ⟨h1, fun ws g1 g2 => .inl ⟨g1, g2.trans h2⟩⟩
    · omega
    · exact ⟨h1, fun ws g1 g2 => .inr ⟨k, hk, .inr ⟨hk, g1, g2.trans h2, h3⟩⟩⟩
  cases o with
  | write buf as =>
    have hl := hset as
    have hb := base_answering A (n + 1) w as
    simp only [applyW]
    generalize answering A (n + 1) w as = x at hl hb
    obtain ⟨ht, hw⟩ := htaken x hl
    obtain ⟨ws, t⟩ := x
    change Late n (pollWrite (layersW A n) A (ws, t) buf).2 ∧ _ = _
    change (layersW A n).base t = _ at hb
    rw [show (layersW A (n + 1)).pollWrite (ws, t) buf = pollWrite (layersW A n) A (ws, t) buf from rfl, taken_write A n ws t buf ht]
    split
    · exact ⟨hw _ ⟨ht.1, ht.2.1, ht.2.2⟩ rfl, (congrArg Socket.wire hb :)⟩
    · exact ⟨hw _ ⟨ht.1, ht.2.1, ht.2.2⟩ rfl, (congrArg Socket.wire hb :)⟩
  | flush as =>
    have hl := hset as
    have hb := base_answering A (n + 1) w as
    simp only [applyW]
    generalize answering A (n + 1) w as = x at hl hb
    obtain ⟨ht, hw⟩ := htaken x hl
    obtain ⟨ws, t⟩ := x
    change Late n (pollFlush (layersW A n) A (ws, t)).2 ∧ _ = _
    change (layersW A n).base t = _ at hb
    rw [show (layersW A (n + 1)).pollFlush (ws, t) = pollFlush (layersW A n) A (ws, t) from rfl, taken_flush A n ws t ht]
    exact ⟨hw _ ⟨ht.1, ht.2.1, ht.2.2⟩ rfl, (congrArg Socket.wire hb :)⟩
  | shutdown as =>
    have hb := base_answering A (n + 1) w as
    have key : ∀ (o : Option Nat), (∀ k, o = some k → Closing (n + 1) k w) → (o = none → Over (n + 1) w) → o ≠ some (n + 1) →
        Late n (applyW A (n + 1) w (.shutdown as)) ∧ ((layersW A (n + 1)).base (applyW A (n + 1) w (.shutdown as))).wire = ((layersW A (n + 1)).base w).wire := by
      intro o h1 h2 h3
      obtain ⟨-, i2, i3⟩ := closing_polls A n [as] w o h1 h2
      exact ⟨i3 (.inl h3), i2⟩
    rcases h with h | ⟨k, hk, hc⟩
    · exact key none (fun k e => by cases e) (fun _ => h) (by simp)
    · exact key (some k) (fun k e => by cases e; exact hc) (fun e => by cases e) (by intro e; cases e; omega)

theorem late_ops (A : Aead) (n : Nat) : ∀ (os : List WOp) (w : WState (n + 1)), Late n w →
    Late n (os.foldl (applyW A (n + 1)) w) ∧ ((layersW A (n + 1)).base (os.foldl (applyW A (n + 1)) w)).wire = ((layersW A (n + 1)).base w).wire := by
  intro os
  induction os with
  | nil => intro w h; exact ⟨h, rfl⟩
  | cons o os ih =>
    intro w h
    obtain ⟨h1, h2⟩ := late_apply A n w h o
    obtain ⟨h3, h4⟩ := ih _ h1
    exact ⟨h3, h4.trans h2⟩

theorem late_taken {n : Nat} {w : WState (n + 1)} (h : Late n w) : Taken w.1 := by
  obtain ⟨xs, t⟩ := w
  rcases h with ⟨h1, h2⟩ | ⟨k, hk, h | ⟨-, h1, -⟩⟩
  · exact h1
  · omega
  · exact h1

theorem emit_panics_flush {τ B : Type} (T : WriteT τ B) {t t' : τ} {f : Bytes} (hf : f ≠ []) (hw : T.pollWrite t f = (.ready (.ok f.length), t')) (h : (T.pollFlush t').1 = .panic) :
    (pollEmit T t (.writing f)).1 = .panic := by
  obtain ⟨m, hm⟩ : ∃ m, f.length = m + 1 := by
    cases f with
    | nil => exact absurd rfl hf
    | cons b f => exact ⟨f.length, rfl⟩
  have hd : f.drop (m + 1) = [] := by rw [← hm, List.drop_length]
  have hall : writeAll T t f = (.ready (.ok ()), [], t') := by
    rw [writeAll, dif_neg hf, hw, hm]
    simp only [hd]
    rw [writeAll, dif_pos rfl]
  simp only [pollEmit, hall, pollFlushing, h]

theorem emit_panics_write {τ B : Type} (T : WriteT τ B) {t t' : τ} {f : Bytes} (hf : f ≠ []) (hw : T.pollWrite t f = (.panic, t')) :
    (pollEmit T t (.writing f)).1 = .panic := by
  have hall : writeAll T t f = (.panic, f, t') := by
    rw [writeAll, dif_neg hf, hw]
  simp only [pollEmit, hall]

/-- An emit panics. -/
theorem late_emit (A : Aead) (n : Nat) (w : WState (n + 1)) (h : Late n w) (f : Bytes) (hf : f ≠ []) : (pollEmit (layersW A (n + 1)) w (.writing f)).1 = .panic := by
  have ht := late_taken h
  obtain ⟨ws, t⟩ := w
  change Taken ws at ht
  have hw : (layersW A (n + 1)).pollWrite (ws, t) f = _ := taken_write A n ws t f ht
  by_cases hl : ws.buffer.length + f.length < 1024
  · rw [if_pos hl] at hw
    exact emit_panics_flush _ hf hw (congrArg Prod.fst (taken_flush A n { ws with buffer := ws.buffer ++ f } t ⟨ht.1, ht.2.1, ht.2.2⟩))
  · rw [if_neg hl] at hw
    exact emit_panics_write _ hf hw

theorem idle_drained (A : Aead) : ∀ (ls : List Layer) (i : Nat) (w : WState ls.length), (sends A ls).idle i w → Drained ls.length w
  | [], _, _, _ => trivial
  | _ :: ls, i, (_, t), ⟨⟨_, _, h⟩, ht⟩ => ⟨by subst h; exact ⟨rfl, rfl, rfl, .inl ⟨rfl, rfl, rfl⟩⟩, idle_drained A ls i t ht⟩

end Bromine.Layers
