import Verif.Model.LayerExchange
import Verif.Lemmas.LayersOne
import Verif.Lemmas.CryptErr
import Verif.Spec.ExchangeOne
/-
The key exchange over one layer (Model/LayerExchange.lean) is that of Model/Handshake.lean.
-/
namespace Bromine.Layers
open Bromine CryptIO
open Bromine.Handshake (DH Keys SPhase CPhase Side PubPoll pollPub toChunks)

/-- What the socket hands out before it is pending for the first time; and what comes after that. -/
def parted : List Chunk → Bytes × Option (List Chunk)
  | [] => ([], none)
  | .pending :: cs => ([], some cs)
  | .data b bs :: cs => (b :: bs ++ (parted cs).1, (parted cs).2)

/-- The bytes after it. -/
def later (o : Option (List Chunk)) : Bytes := flat (o.getD [])

theorem flat_parted : ∀ cs : List Chunk, flat cs = (parted cs).1 ++ later (parted cs).2
  | [] => rfl
  | .pending :: cs => by simp [parted, later, Chunk.bytes]
  | .data b bs :: cs => by
    rw [flat_cons, flat_parted cs]
    simp [parted, Chunk.bytes]

theorem parted_pushRest (r : Bytes) (cs : List Chunk) : parted (pushRest r cs) = (r ++ (parted cs).1, (parted cs).2) := by
  cases r with
  | nil => rfl
  | cons b bs => rfl

theorem parted_toChunks (x : Bytes) : parted (toChunks x) = (x, none) := by
  cases x with
  | nil => rfl
  | cons b bs => simp [toChunks, parted]

/-! ### Reading from the socket -/

theorem fill_parted (n : Nat) (cl : Bool) : ∀ (cs : List Chunk) (acc : Bytes),
    (n ≤ acc.length + (parted cs).1.length → acc.length ≤ n →
      ∃ cs', fill socketR false n acc { chunks := cs, closed := cl } = .done (acc ++ (parted cs).1.take (n - acc.length)) { chunks := cs', closed := cl } ∧
        parted cs' = ((parted cs).1.drop (n - acc.length), (parted cs).2)) ∧
    (acc.length + (parted cs).1.length < n → fill socketR false n acc { chunks := cs, closed := cl } =
      match (parted cs).2 with
      | some cs' => .pending true (acc ++ (parted cs).1) { chunks := cs', closed := cl }
      | none => if cl then .fail .unexpectedEof { chunks := [], closed := cl } else .pending true (acc ++ (parted cs).1) { chunks := [], closed := cl }) := by
  have over : ∀ (cs : List Chunk) (acc : Bytes), n ≤ acc.length → fill socketR false n acc { chunks := cs, closed := cl } = .done acc { chunks := cs, closed := cl } := by
    intro cs acc h
    unfold fill
    rw [if_pos h]
  intro cs
  induction cs with
  | nil =>
    intro acc
    simp only [parted, List.length_nil, Nat.add_zero, List.take_nil, List.append_nil, List.drop_nil]
    refine ⟨fun h _ => ⟨[], over [] acc h, rfl⟩, fun h => ?_⟩
    unfold fill
    rw [if_neg (by omega)]
    cases cl <;> simp [socketR]
  | cons c cs ih =>
    intro acc
    cases c with
    | pending =>
      simp only [parted, List.length_nil, Nat.add_zero, List.take_nil, List.append_nil, List.drop_nil]
      refine ⟨fun h _ => ⟨.pending :: cs, over _ acc h, rfl⟩, fun h => ?_⟩
      unfold fill
      rw [if_neg (by omega)]
      simp [socketR]
    | data b bs =>
      by_cases hn : n ≤ acc.length
      · refine ⟨fun _ h' => ⟨.data b bs :: cs, ?_, ?_⟩, fun h => by omega⟩
        · rw [over _ acc hn]
          simp [show n - acc.length = 0 by omega]
        · simp [show n - acc.length = 0 by omega]
      · have hstep : fill socketR false n acc { chunks := .data b bs :: cs, closed := cl } =
            fill socketR false n (acc ++ (b :: bs).take (n - acc.length)) { chunks := pushRest ((b :: bs).drop (n - acc.length)) cs, closed := cl } := by
          obtain ⟨k, hk⟩ : ∃ k, n - acc.length = k + 1 := ⟨n - acc.length - 1, by omega⟩
          conv => lhs; unfold fill
          rw [if_neg hn, hk]
          simp [socketR]
        rw [hstep]
        simp only [parted]
        by_cases hb : n - acc.length ≤ (b :: bs).length
        · have h1 : (acc ++ (b :: bs).take (n - acc.length)).length = n := by simp only [List.length_append, List.length_take]; omega
          refine ⟨fun _ _ => ⟨pushRest ((b :: bs).drop (n - acc.length)) cs, ?_, ?_⟩, fun h => ?_⟩
          · rw [over _ _ (by omega), List.take_append_of_le_length hb]
          · rw [parted_pushRest, List.drop_append_of_le_length hb]
          · simp only [List.length_append] at h; omega
        · have h1 : (b :: bs).take (n - acc.length) = b :: bs := List.take_of_length_le (by omega)
          have h2 : (b :: bs).drop (n - acc.length) = [] := List.drop_of_length_le (by omega)
          rw [h1, h2]
          obtain ⟨i1, i2⟩ := ih (acc ++ (b :: bs))
          have hl : (acc ++ b :: bs).length = acc.length + (b :: bs).length := List.length_append
          rw [hl] at i1 i2
          have h3 : ((b :: bs ++ (parted cs).1)).take (n - acc.length) = b :: bs ++ (parted cs).1.take (n - (acc.length + (b :: bs).length)) := by
            rw [List.take_append, h1]
            congr 2
            omega
          have h4 : ((b :: bs ++ (parted cs).1)).drop (n - acc.length) = (parted cs).1.drop (n - (acc.length + (b :: bs).length)) := by
            rw [List.drop_append, h2, List.nil_append]
            congr 1
            omega
          rw [h3, h4, ← List.append_assoc, ← List.append_assoc, List.length_append]
          exact ⟨fun h _ => i1 (by omega) (by omega), fun h => i2 (by omega)⟩

/-! ### Reading packages -/

theorem feed_two : ∀ (a acc b : Bytes), feed acc (a ++ b) = if complete (feed acc a).1 then ((feed acc a).1, (feed acc a).2 ++ b) else feed (feed acc a).1 b := by
  intro a
  induction a with
  | nil =>
    intro acc b
    show feed acc b = if complete acc = true then (acc, b) else feed acc b
    by_cases h : complete acc = true
    · rw [if_pos h]
      cases b with
      | nil => rfl
      | cons x b => simp [feed, h]
    · rw [if_neg h]
  | cons x a ih =>
    intro acc b
    simp only [List.cons_append, feed]
    by_cases hc : complete acc = true
    · simp [hc]
    · simp [hc, ih]

theorem pollPackage_parted (cl : Bool) : ∀ (cs : List Chunk) (acc : Bytes), complete acc = false →
    (complete (feed acc (parted cs).1).1 = true → ∃ cs', CryptIO.pollPackage cl acc cs = (.done ((feed acc (parted cs).1).1.drop 4), cs') ∧ parted cs' = ((feed acc (parted cs).1).2, (parted cs).2)) ∧
    (complete (feed acc (parted cs).1).1 = false → CryptIO.pollPackage cl acc cs =
      match (parted cs).2 with
      | some cs' => (.pending (feed acc (parted cs).1).1, cs')
      | none => if cl then (.err .unexpectedEof, []) else (.pending (feed acc (parted cs).1).1, [])) := by
  intro cs
  induction cs with
  | nil =>
    intro acc h
    simp only [parted, feed]
    exact ⟨(fun h' => by rw [h] at h'; cases h'), fun _ => rfl⟩
  | cons c cs ih =>
    intro acc h
    cases c with
    | pending =>
      simp only [parted, feed]
      exact ⟨(fun h' => by rw [h] at h'; cases h'), fun _ => rfl⟩
    | data b bs =>
      simp only [parted, CryptIO.pollPackage]
      rw [feed_two (b :: bs) acc]
      cases hc : complete (feed acc (b :: bs)).1 with
      | true =>
        simp only [if_true]
        exact ⟨fun _ => ⟨_, rfl, parted_pushRest _ _⟩, fun h' => by rw [hc] at h'; cases h'⟩
      | false =>
        simp only [Bool.false_eq_true, if_false]
        exact ih _ hc

/-- Two polls that hand out the same bytes. -/
structure SameRead (o : Option (List Chunk)) (r r' : ReadRes) : Prop where
  poll : r.poll = r'.poll
  filled : r.filled = r'.filled
  rs : r.rs = r'.rs
  flat : flat r.chunks = flat r'.chunks ++ later o
  silent : o = none → (parted r.chunks).2 = none

theorem later_none : later none = [] := rfl

theorem pollFutRead_parted (A : Aead) (cl : Bool) (rs : ReadStream) (want : Nat) (cs : List Chunk) (h : ReadOk rs) (hf : rs.fut ≠ none) :
    SameRead (parted cs).2 (CryptIO.pollFutRead A cl rs want cs) (CryptIO.pollFutRead A (cl && (parted cs).2.isNone) rs want (toChunks (parted cs).1)) := by
  unfold CryptIO.pollFutRead
  rcases hfut : rs.fut with _ | (acc | _)
  · exact absurd hfut hf
  · dsimp only
    have hacc := (h acc hfut).not_complete
    obtain ⟨a1, a2⟩ := pollPackage_parted cl cs acc hacc
    obtain ⟨b1, b2⟩ := pollPackage_parted (cl && (parted cs).2.isNone) (toChunks (parted cs).1) acc hacc
    rw [parted_toChunks] at b1 b2
    dsimp only at b1 b2
    cases hc : complete (feed acc (parted cs).1).1 with
    | true =>
      obtain ⟨cs', e1, e2⟩ := a1 hc
      obtain ⟨cs'', e3, e4⟩ := b1 hc
      rw [e1, e3]
      dsimp only
      have hfl : flat cs' = flat cs'' ++ later (parted cs).2 := by
        rw [flat_parted cs', flat_parted cs'', e2, e4]
        simp [later]
      have hsil : (parted cs).2 = none → (parted cs').2 = none := by rw [e2]; exact id
      rcases rs.dec.decrypt A ((feed acc (parted cs).1).1.drop 4) with ⟨e | q, x⟩
      · exact ⟨rfl, rfl, rfl, hfl, hsil⟩
      · exact ⟨rfl, rfl, rfl, hfl, hsil⟩
    | false =>
      rw [a2 hc, b2 hc]
      cases ho : (parted cs).2 with
      | some cs' =>
        simp only [Option.isNone_some, Bool.and_false, Bool.false_eq_true, if_false]
        exact ⟨rfl, rfl, rfl, by simp [later], by simp⟩
      | none =>
        simp only [Option.isNone_none, Bool.and_true]
        cases cl <;> exact ⟨rfl, rfl, rfl, rfl, fun _ => rfl⟩
  · refine ⟨rfl, rfl, rfl, ?_, id⟩
    show flat cs = flat (toChunks (parted cs).1) ++ _
    rw [flat_parted cs, flat_parted (toChunks (parted cs).1), parted_toChunks]
    simp [later]

theorem pollRead_parted (A : Aead) (cl : Bool) (rs : ReadStream) (want : Nat) (cs : List Chunk) (h : ReadOk rs) :
    SameRead (parted cs).2 (rs.pollRead A cl want cs) (rs.pollRead A (cl && (parted cs).2.isNone) want (toChunks (parted cs).1)) := by
  unfold ReadStream.pollRead
  rcases hf : rs.fut with _ | f
  · dsimp only
    split
    · have := pollFutRead_parted A cl { rs with remaining := rs.remaining.drop want, fut := some (.reading []) } (want - (rs.remaining.take want).length) cs
        (by intro acc ha; cases ha; exact begun_nil) (by simp)
      exact ⟨this.poll, by rw [this.filled], this.rs, this.flat, this.silent⟩
    · refine ⟨rfl, rfl, rfl, ?_, id⟩
      show flat cs = flat (toChunks (parted cs).1) ++ _
      rw [flat_parted cs, flat_parted (toChunks (parted cs).1), parted_toChunks]
      simp [later]
  · exact pollFutRead_parted A cl rs want cs h (by simp [hf])

/-! ### Polls -/

/-- The socket has `rest` left, and what comes after it is pending. -/
structure Rest (o : Option (List Chunk)) (rest : Bytes) (cs : List Chunk) : Prop where
  flat : flat cs = rest ++ later o
  silent : o = none → (parted cs).2 = none

theorem rest_parted (cs : List Chunk) : Rest (parted cs).2 (parted cs).1 cs := ⟨flat_parted cs, id⟩

/-- The phases that end an exchange. -/
structure Ends (Φ : Type) where
  done : CryptStream → Φ
  failed : Error → Φ
  panicked : Φ

/-- A poll of the exchange over one layer, and a poll of the exchange over a socket. -/
inductive Matches {φ Φ : Type} (E : Ends Φ) (same : φ → Φ → Prop) (writer : φ → Socket) (reader : φ → Script) (wire : Bytes) (cl : Bool) (o : Option (List Chunk)) :
    Setup φ (WriteStream × Socket) (ReadStream × Script) → Handshake.Polled Φ → Prop
  | pending {b : Bool} {s : φ} {P : Handshake.Polled Φ} : same s P.phase → (writer s).wire = wire ++ P.sent → (reader s).closed = cl → Rest o P.rest (reader s).chunks →
      Matches E same writer reader wire cl o (.pending b s) P
  | done {w : WriteStream × Socket} {r : ReadStream × Script} {P : Handshake.Polled Φ} : P.phase = E.done { read := r.1, write := w.1 } → w.2.wire = wire ++ P.sent → r.2.closed = cl → Rest o P.rest r.2.chunks →
      Matches E same writer reader wire cl o (.done w r) P
  | failed {e : Error} {k : Socket} {P : Handshake.Polled Φ} : P.phase = E.failed e → k.wire = wire ++ P.sent → Matches E same writer reader wire cl o (.failed e k) P
  | panicked {k : Socket} {P : Handshake.Polled Φ} : P.phase = E.panicked → k.wire = wire ++ P.sent → Matches E same writer reader wire cl o (.panicked k) P

/-- The exchange over one layer after some polls, and a side of the exchange over a socket. -/
inductive Outcome {φ Φ : Type} (E : Ends Φ) (same : φ → Φ → Prop) (writer : φ → Socket) (reader : φ → Script) : Setup φ (WriteStream × Socket) (ReadStream × Script) → Side Φ → Prop
  | pending {b : Bool} {s : φ} {σ : Side Φ} : same s σ.phase → (writer s).wire = σ.sent → flat (reader s).chunks = σ.inbox → Outcome E same writer reader (.pending b s) σ
  | done {w : WriteStream × Socket} {r : ReadStream × Script} {σ : Side Φ} : σ.phase = E.done { read := r.1, write := w.1 } → w.2.wire = σ.sent → flat r.2.chunks = σ.inbox → Outcome E same writer reader (.done w r) σ
  | failed {e : Error} {k : Socket} {σ : Side Φ} : σ.phase = E.failed e → k.wire = σ.sent → Outcome E same writer reader (.failed e k) σ
  | panicked {k : Socket} {σ : Side Φ} : σ.phase = E.panicked → k.wire = σ.sent → Outcome E same writer reader (.panicked k) σ

theorem run_append {Φ : Type} (f : Φ → Bool → Bytes → List IoAns → Handshake.Polled Φ) : ∀ (xs ys : List Handshake.Op) (s : Side Φ), Side.run f s (xs ++ ys) = (Side.run f s xs).bind fun s => Side.run f s ys
  | [], _, _ => rfl
  | x :: xs, ys, s => by
    simp only [List.cons_append, Side.run]
    cases s.step f x with
    | none => rfl
    | some s' => exact run_append f xs ys s'

theorem run_same {Φ : Type} (E : Ends Φ) (f : Φ → Bool → Bytes → List IoAns → Handshake.Polled Φ) (c : Connecting (WriteStream × Socket) (ReadStream × Script)) (reader : c.State → Script) (same : c.State → Φ → Prop)
    (hset : ∀ s b ph, same s ph → same (c.setSock s b) ph) (hreader : ∀ s b, reader (c.setSock s b) = reader s) (hsock : ∀ s b, c.sock (c.setSock s b) = b)
    (hstep : ∀ s ph, same s ph → Matches E same c.sock reader (c.sock s).wire (reader s).closed (parted (reader s).chunks).2 (c.poll s)
      (f ph ((reader s).closed && (parted (reader s).chunks).2.isNone) (parted (reader s).chunks).1 (c.sock s).answers)) :
    ∀ (ps : List (List IoAns)) (b : Bool) (s : c.State) (σ : Side Φ), same s σ.phase → (c.sock s).wire = σ.sent → flat (reader s).chunks = σ.inbox →
      (σ.closed = true → (reader s).closed = true ∧ (parted (reader s).chunks).2 = none) →
      ∃ ops σ', Side.run f σ ops = some σ' ∧ σ'.got = σ.got ∧ ops.filterMap Spec.pollAnswers <+: ps ∧ Outcome E same c.sock reader (c.run (.pending b s) ps) σ' ∧
        (∀ b' s', c.run (.pending b s) ps = .pending b' s' → ops.filterMap Spec.pollAnswers = ps) ∧ (.close ∈ ops → (reader s).closed = true) := by
  intro ps
  induction ps with
  | nil =>
    intro b s σ h1 h2 h3 _
    exact ⟨[], σ, rfl, rfl, List.prefix_refl _, .pending h1 h2 h3, fun _ _ _ => rfl, by simp⟩
  | cons as ps ih =>
    intro b s σ h1 h2 h3 h4
    -- the socket is closed when nothing is left to come
    obtain ⟨pre, σ1, hp1, hp2, hp3, hp4, hp5, hp6, hp7, hp8⟩ : ∃ pre σ1, Side.run f σ pre = some σ1 ∧ σ1.phase = σ.phase ∧ σ1.inbox = σ.inbox ∧ σ1.sent = σ.sent ∧ σ1.got = σ.got ∧
        pre.filterMap Spec.pollAnswers = [] ∧ σ1.closed = ((reader s).closed && (parted (reader s).chunks).2.isNone) ∧ (.close ∈ pre → (reader s).closed = true) := by
      cases hc : ((reader s).closed && (parted (reader s).chunks).2.isNone) with
      | true => exact ⟨[.close], { σ with closed := true }, rfl, rfl, rfl, rfl, rfl, rfl, rfl, fun _ => (by simp only [Bool.and_eq_true] at hc; exact hc.1)⟩
      | false =>
        refine ⟨[], σ, rfl, rfl, rfl, rfl, rfl, rfl, ?_, by simp⟩
        cases hb : σ.closed with
        | false => rfl
        | true =>
          obtain ⟨g1, g2⟩ := h4 hb
          simp [g1, g2] at hc
    have hm := hstep (c.setSock s { c.sock s with answers := as }) σ.phase (hset _ _ _ h1)
    rw [hreader, hsock] at hm
    dsimp only at hm
    have hfl := flat_parted (reader s).chunks
    rw [h3] at hfl
    have hstep1 : σ1.step f (.poll (parted (reader s).chunks).1.length as) = some { σ1 with
        phase := (f σ.phase ((reader s).closed && (parted (reader s).chunks).2.isNone) (parted (reader s).chunks).1 as).phase
        inbox := (f σ.phase ((reader s).closed && (parted (reader s).chunks).2.isNone) (parted (reader s).chunks).1 as).rest ++ later (parted (reader s).chunks).2
        sent := σ1.sent ++ (f σ.phase ((reader s).closed && (parted (reader s).chunks).2.isNone) (parted (reader s).chunks).1 as).sent } := by
      have e1 : (σ1.closed && decide (σ1.inbox.length ≤ (parted (reader s).chunks).1.length)) = ((reader s).closed && (parted (reader s).chunks).2.isNone) := by
        rw [hp7]
        cases hc : ((reader s).closed && (parted (reader s).chunks).2.isNone) with
        | false => rfl
        | true =>
          have : (parted (reader s).chunks).2 = none := by
            simp only [Bool.and_eq_true, Option.isNone_iff_eq_none] at hc
            exact hc.2
          rw [hp3, hfl, this]
          simp [later]
      have e2 : σ1.inbox.take (parted (reader s).chunks).1.length = (parted (reader s).chunks).1 := by rw [hp3, hfl, List.take_left]
      have e3 : σ1.inbox.drop (parted (reader s).chunks).1.length = later (parted (reader s).chunks).2 := by rw [hp3, hfl, List.drop_left]
      simp only [Side.step]
      rw [e1, e2, e3, hp2]
    generalize hP : f σ.phase ((reader s).closed && (parted (reader s).chunks).2.isNone) (parted (reader s).chunks).1 as = P at hm hstep1
    have hrun : ∀ ops, Side.run f σ (pre ++ .poll (parted (reader s).chunks).1.length as :: ops) = Side.run f { σ1 with phase := P.phase, inbox := P.rest ++ later (parted (reader s).chunks).2, sent := σ1.sent ++ P.sent } ops := by
      intro ops
      rw [run_append, hp1]
      simp only [Option.bind_some, Side.run]
      rw [hstep1]
      rfl
    have hcl : Handshake.Op.close ∈ pre ++ [Handshake.Op.poll (parted (reader s).chunks).1.length as] → (reader s).closed = true := by
      intro h
      rcases List.mem_append.1 h with h | h
      · exact hp8 h
      · simp at h
    have hwire : ∀ z : Bytes, z = (c.sock s).wire ++ P.sent → z = σ1.sent ++ P.sent := by
      intro z hz
      rw [hz, h2, hp4]
    have hans : (pre ++ [Handshake.Op.poll (parted (reader s).chunks).1.length as]).filterMap Spec.pollAnswers <+: as :: ps := by
      rw [List.filterMap_append, hp6]
      exact ⟨ps, rfl⟩
    show ∃ ops σ', _ ∧ _ ∧ _ ∧ Outcome E same c.sock reader (c.run (c.poll (c.setSock s { c.sock s with answers := as })) ps) σ' ∧ (∀ b' s', c.run (c.poll (c.setSock s { c.sock s with answers := as })) ps = .pending b' s' → _) ∧ _
    generalize c.poll (c.setSock s { c.sock s with answers := as }) = X at hm
    have hend : ∀ Y : Setup c.State (WriteStream × Socket) (ReadStream × Script), (∀ b s', Y ≠ .pending b s') → c.run Y ps = Y := by
      intro Y hY
      cases Y with
      | pending b s' => exact absurd rfl (hY b s')
      | done w r => cases ps <;> rfl
      | failed e k => cases ps <;> rfl
      | panicked k => cases ps <;> rfl
    cases hm with
    | @pending b' s' _ m1 m2 m3 m4 =>
      obtain ⟨ops, σ', i1, i2, i3, i4, i5, i6⟩ := ih b' s' { σ1 with phase := P.phase, inbox := P.rest ++ later (parted (reader s).chunks).2, sent := σ1.sent ++ P.sent } m1 (hwire _ m2) m4.flat (by
        intro hb
        dsimp only at hb
        rw [hp7, Bool.and_eq_true, Option.isNone_iff_eq_none] at hb
        exact ⟨m3.trans hb.1, m4.silent hb.2⟩)
      refine ⟨pre ++ .poll (parted (reader s).chunks).1.length as :: ops, σ', (hrun ops).trans i1, i2.trans hp5, ?_, i4, fun b'' s'' h => ?_, fun h => ?_⟩
      · rw [List.filterMap_append, hp6]
        exact List.cons_prefix_cons.2 ⟨rfl, i3⟩
      · rw [List.filterMap_append, hp6]
        exact (congrArg (as :: ·) (i5 b'' s'' h) :)
      · rcases List.mem_append.1 h with h | h
        · exact hp8 h
        · rcases List.mem_cons.1 h with h | h
          · cases h
          · exact m3.symm.trans (i6 h)
    | done m1 m2 m3 m4 => exact ⟨_, _, hrun [], hp5, hans, (by rw [hend _ (by simp)]; exact .done m1 (hwire _ m2) m4.flat), (by intro b' s' h; rw [hend _ (by simp)] at h; cases h), hcl⟩
    | failed m1 m2 => exact ⟨_, _, hrun [], hp5, hans, (by rw [hend _ (by simp)]; exact .failed m1 (hwire _ m2)), (by intro b' s' h; rw [hend _ (by simp)] at h; cases h), hcl⟩
    | panicked m1 m2 => exact ⟨_, _, hrun [], hp5, hans, (by rw [hend _ (by simp)]; exact .panicked m1 (hwire _ m2)), (by intro b' s' h; rw [hend _ (by simp)] at h; cases h), hcl⟩

/-! ### Server -/

/-- Where the server of one layer is. -/
inductive SrvSame : (Socket × Script) ⊕ SrvPhase Socket Script → SPhase → Prop
  | start {s : Socket × Script} : SrvSame (.inl s) (.recvPub [])
  | recvPub {acc : Bytes} {w : Socket} {r : Script} : acc.length ≤ 32 → SrvSame (.inr (.recvPub acc w r)) (.recvPub acc)
  | sendPub {other rem : Bytes} {w : Socket} {r : Script} : SrvSame (.inr (.sendPub other rem w r)) (.sendPub other rem)
  | flushPub {other : Bytes} {w : Socket} {r : Script} : SrvSame (.inr (.flushPub other w r)) (.flushPub other)
  | flushSecret {w : WriteStream × Socket} {r : ReadStream × Script} : SrvSame (.inr (.flushSecret w r)) (.flushSecret { read := r.1, write := w.1 })

def srvReader : (Socket × Script) ⊕ SrvPhase Socket Script → Script
  | .inl s => s.2
  | .inr (.recvPub _ _ r) | .inr (.sendPub _ _ _ r) | .inr (.flushPub _ _ r) => r
  | .inr (.writeSecret _ _ r) | .inr (.flushSecret _ r) => r.2

def srvEnds : Ends SPhase := { done := .done, failed := .failed, panicked := .panicked }

def srvSock : (Socket × Script) ⊕ SrvPhase Socket Script → Socket
  | .inl s => s.1
  | .inr x => x.writer

/-- What a poll that has got to the exchange gives to the whole future. -/
def lifted {φ τ ρ : Type} (x : Setup φ τ ρ) : Setup ((Socket × Script) ⊕ φ) τ ρ :=
  match x with
  | .pending b x => .pending b (.inr x)
  | .done w r => .done w r
  | .failed e k => .failed e k
  | .panicked k => .panicked k

variable {A : Aead} {D : DH} {keys : Keys} {fresh : Bytes}

theorem sFlushSecret_same {w : WriteStream × Socket} {r : ReadStream × Script} {wire sent rest : Bytes} {cl : Bool} {o : Option (List Chunk)} (hw : w.2.wire = wire ++ sent) (hcl : r.2.closed = cl) (hr : Rest o rest r.2.chunks) :
    Matches srvEnds SrvSame srvSock srvReader wire cl o (lifted (sFlushSecret socket A fresh w r)) (Handshake.sFlushSecret A fresh { read := r.1, write := w.1 } w.2.answers rest sent) := by
  obtain ⟨ws, as, wi⟩ := w
  dsimp only at hw
  subst hw
  unfold sFlushSecret Handshake.sFlushSecret
  have := pollFlush_one A ws as (wire ++ sent)
  simp only [encryptedW, this]
  generalize ws.pollFlush A as = X
  obtain ⟨p, ws', wi, as'⟩ := X
  dsimp only
  rcases p with (e | u) | b | _
  · exact .failed rfl (List.append_assoc _ _ _)
  · exact .done rfl (List.append_assoc _ _ _) hcl hr
  · exact .pending .flushSecret (List.append_assoc _ _ _) hcl hr
  · exact .panicked rfl (List.append_assoc _ _ _)

/-- The secret fits into the buffer. -/
theorem writeSecret_now (hf : fresh.length = 32) (secret : Bytes) (w : Socket) :
    writeAll (encryptedW socket A) (newW secret w) fresh = (.ready (.ok ()), [], ({ enc := { key := secret }, buffer := fresh }, w)) ∧
    ∀ as, ((CryptStream.new secret).write.pollWrite A fresh as) = { poll := .ready (.ok 32), ws := { enc := { key := secret }, buffer := fresh }, rest := as, wire := [] } := by
  have hp : ∀ as, (({ enc := { key := secret } } : WriteStream).pollWrite A fresh as) = { poll := .ready (.ok 32), ws := { enc := { key := secret }, buffer := fresh }, rest := as, wire := [] } := by
    intro as
    simp [WriteStream.pollWrite, WRITE_BUF_SIZE, hf]
  refine ⟨?_, fun as => hp as⟩
  obtain ⟨as, wi⟩ := w
  have hq : (encryptedW socket A).pollWrite (newW secret { answers := as, wire := wi }) fresh = (.ready (.ok 32), ({ enc := { key := secret }, buffer := fresh }, { answers := as, wire := wi })) := by
    have := pollWrite_one A { enc := { key := secret } } as wi fresh
    rw [hp] at this
    refine this.trans ?_
    simp
  unfold writeAll
  have hne : fresh ≠ [] := by intro h; rw [h] at hf; cases hf
  rw [dif_neg hne, hq]
  dsimp only
  rw [List.drop_of_length_le (by omega)]
  unfold writeAll
  simp

theorem sFlushPub_same (hf : fresh.length = 32) {other : Bytes} {w : Socket} {r : Script} {wire sent rest : Bytes} {cl : Bool} {o : Option (List Chunk)} (hw : w.wire = wire ++ sent) (hcl : r.closed = cl) (hr : Rest o rest r.chunks) :
    Matches srvEnds SrvSame srvSock srvReader wire cl o (lifted (sFlushPub socket A D keys fresh other w r)) (Handshake.sFlushPub A D keys fresh other w.answers rest sent) := by
  obtain ⟨as, wi⟩ := w
  dsimp only at hw
  subst hw
  unfold sFlushPub Handshake.sFlushPub
  rcases as with _ | ⟨n | _ | e, as⟩
  · exact .pending .flushPub rfl hcl hr
  rotate_left
  · exact .pending .flushPub rfl hcl hr
  · exact .failed rfl rfl
  · simp only [socket]
    unfold sWriteSecret Handshake.sWriteSecret
    obtain ⟨h1, h2⟩ := writeSecret_now (A := A) hf (D.dh keys.secret other) { answers := as, wire := wire ++ sent }
    have h1' := h1
    simp only [socket] at h1'
    rw [h1', h2]
    dsimp only
    rw [List.append_nil]
    exact sFlushSecret_same (w := ({ enc := { key := D.dh keys.secret other }, buffer := fresh }, { answers := as, wire := wire ++ sent })) (r := newR (D.dh keys.secret other) r) rfl hcl hr

theorem sSendPub_same (hf : fresh.length = 32) {other rem : Bytes} {w : Socket} {r : Script} {rest : Bytes} {cl : Bool} {o : Option (List Chunk)} (hcl : r.closed = cl) (hr : Rest o rest r.chunks) :
    Matches srvEnds SrvSame srvSock srvReader w.wire cl o (lifted (sSendPub socket A D keys fresh other rem w r)) (Handshake.sSendPub A D keys fresh other rem w.answers rest) := by
  obtain ⟨as, wire⟩ := w
  unfold sSendPub Handshake.sSendPub
  rw [writeAll_socket]
  rcases pollWriteAll rem as with ⟨_ | (e | u), wi, rem', as'⟩
  · exact .pending .sendPub rfl hcl hr
  · exact .failed rfl rfl
  · exact sFlushPub_same hf (w := { answers := as', wire := wire ++ wi }) rfl hcl hr

/-- Reading a public key. -/
theorem fill_pub {acc : Bytes} {cs : List Chunk} {cl : Bool} (ha : acc.length ≤ 32) :
    (∃ other cs', fill socketR false 32 acc { chunks := cs, closed := cl } = .done other { chunks := cs', closed := cl } ∧ ∃ rest, pollPub (cl && (parted cs).2.isNone) acc (parted cs).1 = .got other rest ∧ parted cs' = (rest, (parted cs).2)) ∨
    (∃ r, fill socketR false 32 acc { chunks := cs, closed := cl } = .fail .unexpectedEof r ∧ pollPub (cl && (parted cs).2.isNone) acc (parted cs).1 = .eof) ∨
    (∃ acc' cs', fill socketR false 32 acc { chunks := cs, closed := cl } = .pending true acc' { chunks := cs', closed := cl } ∧ pollPub (cl && (parted cs).2.isNone) acc (parted cs).1 = .pending acc' ∧ acc'.length ≤ 32 ∧ Rest (parted cs).2 [] cs') := by
  obtain ⟨h1, h2⟩ := fill_parted 32 cl cs acc
  unfold pollPub
  by_cases hn : 32 ≤ acc.length + (parted cs).1.length
  · obtain ⟨cs', e1, e2⟩ := h1 hn ha
    rw [if_pos hn]
    exact .inl ⟨_, cs', e1, _, rfl, e2⟩
  · have e := h2 (by omega)
    rw [if_neg hn, e]
    cases ho : (parted cs).2 with
    | some cs' =>
      refine .inr (.inr ⟨_, _, rfl, by simp, by simp; omega, ⟨rfl, by simp⟩⟩)
    | none =>
      cases cl with
      | true => exact .inr (.inl ⟨_, rfl, by simp⟩)
      | false => exact .inr (.inr ⟨_, _, rfl, by simp, by simp; omega, ⟨rfl, fun _ => rfl⟩⟩)

theorem sRecvPub_same (hf : fresh.length = 32) {acc : Bytes} {w : Socket} {r : Script} (ha : acc.length ≤ 32) :
    Matches srvEnds SrvSame srvSock srvReader w.wire r.closed (parted r.chunks).2 (lifted (sRecvPub socket socketR A D keys fresh acc w r))
      (Handshake.serverPoll A D keys fresh (.recvPub acc) (r.closed && (parted r.chunks).2.isNone) (parted r.chunks).1 w.answers) := by
  obtain ⟨cs, cl⟩ := r
  unfold sRecvPub Handshake.serverPoll
  rcases fill_pub (cs := cs) (cl := cl) ha with ⟨other, cs', e1, rest, e2, e3⟩ | ⟨r, e1, e2⟩ | ⟨acc', cs', e1, e2, e3, e4⟩
  · rw [e1]
    dsimp only
    rw [e2]
    dsimp only
    split
    · exact .failed rfl (List.append_nil _).symm
    · refine sSendPub_same hf rfl ?_
      have := rest_parted cs'
      rwa [e3] at this
  · rw [e1]
    dsimp only
    rw [e2]
    exact .failed rfl (List.append_nil _).symm
  · rw [e1]
    dsimp only
    rw [e2]
    exact .pending (.recvPub e3) (List.append_nil _).symm rfl e4

theorem serverPoll_same (x : Exchange) (hf : x.fresh.length = 32) (s : (Socket × Script) ⊕ SrvPhase Socket Script) (ph : SPhase) (h : SrvSame s ph) :
    Matches srvEnds SrvSame srvSock srvReader (srvSock s).wire (srvReader s).closed (parted (srvReader s).chunks).2 ((server A D [x]).poll s)
      (Handshake.serverPoll A D x.server x.fresh ph ((srvReader s).closed && (parted (srvReader s).chunks).2.isNone) (parted (srvReader s).chunks).1 (srvSock s).answers) := by
  cases h with
  | @start s => exact sRecvPub_same (A := A) (D := D) (keys := x.server) hf (acc := []) (w := s.1) (r := s.2) (by simp)
  | recvPub ha => exact sRecvPub_same (A := A) (D := D) (keys := x.server) hf ha
  | @sendPub other rem w r => exact sSendPub_same (A := A) (D := D) (keys := x.server) hf rfl (rest_parted r.chunks)
  | @flushPub other w r => exact sFlushPub_same (A := A) (D := D) (keys := x.server) hf (w := w) (sent := []) (List.append_nil _).symm rfl (rest_parted r.chunks)
  | @flushSecret w r => exact sFlushSecret_same (A := A) (fresh := x.fresh) (w := w) (r := r) (sent := []) (List.append_nil _).symm rfl (rest_parted r.2.chunks)

theorem server_same (x : Exchange) (hf : x.fresh.length = 32) (sc : Script) (ps : List (List IoAns)) :
    ∃ ops σ, Side.run (Handshake.serverPoll A D x.server x.fresh) Handshake.serverInit (.arrive sc.bytes :: ops) = some σ ∧ σ.got = sc.bytes ∧ ops.filterMap Spec.pollAnswers <+: ps ∧
      Outcome srvEnds SrvSame srvSock srvReader (serverRuns A D [x] sc ps) σ ∧
      (∀ b s, serverRuns A D [x] sc ps = .pending b s → ops.filterMap Spec.pollAnswers = ps) ∧ (.close ∈ ops → sc.closed = true) := by
  have hk : (server A D [x]).sock = srvSock := by
    funext s
    rcases s with s | (_ | _ | _ | _ | _) <;> rfl
  obtain ⟨ops, σ, h1, h2, h3, h4, h5, h6⟩ := run_same srvEnds (Handshake.serverPoll A D x.server x.fresh) (server A D [x]) srvReader SrvSame
    (by intro s b ph h; cases h <;> constructor; assumption) (by intro s b; rcases s with s | (_ | _ | _ | _ | _) <;> rfl) (by intro s b; rcases s with s | (_ | _ | _ | _ | _) <;> rfl)
    (by rw [hk]; exact fun s ph h => serverPoll_same x hf s ph h) ps true (.inl ({}, sc)) { phase := .recvPub [], inbox := sc.bytes, got := sc.bytes } .start rfl rfl (by intro h; cases h)
  rw [hk] at h4
  exact ⟨ops, σ, h1, h2, h3, h4, h5, h6⟩

/-! ### Client -/

/-- Where the client of one layer is. -/
inductive CliSame (own : Bytes) : (Socket × Script) ⊕ CliPhase Socket Script → CPhase → Prop
  | start {s : Socket × Script} : CliSame own (.inl s) (.sendPub own)
  | sendPub {rem : Bytes} {w : Socket} {r : Script} : CliSame own (.inr (.sendPub rem w r)) (.sendPub rem)
  | flushPub {w : Socket} {r : Script} : CliSame own (.inr (.flushPub w r)) .flushPub
  | recvPub {acc : Bytes} {w : Socket} {r : Script} : acc.length ≤ 32 → CliSame own (.inr (.recvPub acc w r)) (.recvPub acc)
  | recvSecret {got : Bytes} {w : WriteStream × Socket} {r : ReadStream × Script} : got.length < 32 → ReadOk r.1 → CliSame own (.inr (.recvSecret got w r)) (.recvSecret { read := r.1, write := w.1 } got)

def cliReader : (Socket × Script) ⊕ CliPhase Socket Script → Script
  | .inl s => s.2
  | .inr (.sendPub _ _ r) | .inr (.flushPub _ r) | .inr (.recvPub _ _ r) => r
  | .inr (.recvSecret _ _ r) => r.2

def cliEnds : Ends CPhase := { done := .done, failed := .failed, panicked := .panicked }

def cliSock : (Socket × Script) ⊕ CliPhase Socket Script → Socket
  | .inl s => s.1
  | .inr x => x.writer

/-- A poll to read that is pending has not filled the buffer. -/
theorem pollFutRead_short (A : Aead) (cl : Bool) (rs : ReadStream) (want : Nat) (cs : List Chunk) (hw : 0 < want) {b : Bool} (h : (CryptIO.pollFutRead A cl rs want cs).poll = .pending b) :
    (CryptIO.pollFutRead A cl rs want cs).filled.length < want := by
  unfold CryptIO.pollFutRead at h ⊢
  rcases hf : rs.fut with _ | (acc | _)
  · rw [hf] at h; cases h
  · rw [hf] at h
    dsimp only at h ⊢
    rcases hp : CryptIO.pollPackage cl acc cs with ⟨acc' | c | e, cs'⟩
    · simpa using hw
    · rw [hp] at h
      dsimp only at h ⊢
      rcases hd : rs.dec.decrypt A c with ⟨e | q, x⟩
      · simpa using hw
      · rw [hd] at h
        dsimp only at h ⊢
        split at h
        · cases h
        · rw [List.length_take]; omega
    · simpa using hw
  · rw [hf] at h; cases h

theorem pollRead_short (A : Aead) (cl : Bool) (rs : ReadStream) (want : Nat) (cs : List Chunk) (hw : 0 < want) {b : Bool} (h : (rs.pollRead A cl want cs).poll = .pending b) :
    (rs.pollRead A cl want cs).filled.length < want := by
  unfold ReadStream.pollRead at h ⊢
  rcases hf : rs.fut with _ | f
  · rw [hf] at h
    dsimp only at h ⊢
    split at h
    · next hlt =>
      rw [if_pos hlt]
      have := pollFutRead_short A cl { rs with remaining := rs.remaining.drop want, fut := some (.reading []) } (want - (rs.remaining.take want).length) cs (by omega) h
      dsimp only
      rw [List.length_append]
      omega
    · cases h
  · rw [hf] at h
    exact pollFutRead_short A cl rs want cs hw h

theorem cRecvSecret_same {own got : Bytes} {w : WriteStream × Socket} {r : ReadStream × Script} {wire sent : Bytes} (hw : w.2.wire = wire ++ sent) (hg : got.length < 32) (hr : ReadOk r.1) :
    Matches cliEnds (CliSame own) cliSock cliReader wire r.2.closed (parted r.2.chunks).2 (lifted (cRecvSecret socket socketR A got w r))
      (Handshake.cRecvSecret A { read := r.1, write := w.1 } got (r.2.closed && (parted r.2.chunks).2.isNone) (parted r.2.chunks).1 sent) := by
  obtain ⟨rs, cs, cl⟩ := r
  dsimp only at hr
  obtain ⟨h1, h2⟩ := pollRead_one A rs { chunks := cs, closed := cl } (32 - got.length) hr
  have h3 := pollRead_parted A cl rs (32 - got.length) cs hr
  have h4 := pollRead_progress A cl rs (32 - got.length) cs
  have h5 := fun b => pollRead_short A cl rs (32 - got.length) cs (by omega) (b := b)
  dsimp only at h1 h2
  unfold cRecvSecret Handshake.cRecvSecret
  have hfill : fill (encryptedR socketR A) false 32 got (rs, { chunks := cs, closed := cl }) =
      (match (rs.pollRead A cl (32 - got.length) cs).poll with
        | .ready (.ok _) => .done (got ++ (rs.pollRead A cl (32 - got.length) cs).filled) ((rs.pollRead A cl (32 - got.length) cs).rs, { chunks := (rs.pollRead A cl (32 - got.length) cs).chunks, closed := cl })
        | .ready (.error e) => .fail e ((rs.pollRead A cl (32 - got.length) cs).rs, { chunks := (rs.pollRead A cl (32 - got.length) cs).chunks, closed := cl })
        | .pending b => .pending b (got ++ (rs.pollRead A cl (32 - got.length) cs).filled) ((rs.pollRead A cl (32 - got.length) cs).rs, { chunks := (rs.pollRead A cl (32 - got.length) cs).chunks, closed := cl })
        | .panic => .panic ((rs.pollRead A cl (32 - got.length) cs).rs, { chunks := (rs.pollRead A cl (32 - got.length) cs).chunks, closed := cl })) := by
    unfold fill
    rw [if_neg (by omega)]
    simp only [encryptedR]
    rw [h1]
    generalize rs.pollRead A cl (32 - got.length) cs = X at h4
    obtain ⟨p, fl, rs', cs'⟩ := X
    dsimp only at h4 ⊢
    rcases p with (e | u) | b | _
    · rfl
    · have hl := h4.2 u rfl
      cases fl with
      | nil => simp only [List.length_nil] at hl; omega
      | cons x xs =>
        dsimp only
        unfold fill
        rw [if_pos (by rw [List.length_append]; omega)]
    · rfl
    · rfl
  rw [hfill]
  dsimp only
  generalize rs.pollRead A (cl && (parted cs).2.isNone) (32 - got.length) (toChunks (parted cs).1) = Y at h3
  generalize rs.pollRead A cl (32 - got.length) cs = X at h2 h3 h4 h5
  obtain ⟨p, fl, rs', cs'⟩ := X
  obtain ⟨p', fl', rs'', cs''⟩ := Y
  obtain ⟨g1, g2, g3, g4, g5⟩ := h3
  dsimp only at g1 g2 g3 g4 g5 h2 h5 ⊢
  subst g1 g2 g3
  have hrest : Rest (parted cs).2 ((cs''.map Chunk.bytes).flatten) cs' := ⟨g4, g5⟩
  rcases p with (e | u) | b | _
  · exact .failed rfl hw
  · exact .done rfl hw rfl hrest
  · exact .pending (.recvSecret (by rw [List.length_append]; have := h5 b rfl; omega) h2) hw rfl hrest
  · exact .panicked rfl hw

theorem cRecvPub_same {own acc : Bytes} {w : Socket} {r : Script} {wire sent : Bytes} (hw : w.wire = wire ++ sent) (ha : acc.length ≤ 32) :
    Matches cliEnds (CliSame own) cliSock cliReader wire r.closed (parted r.chunks).2 (lifted (cRecvPub socket socketR A D keys acc w r))
      (Handshake.cRecvPub A D keys acc (r.closed && (parted r.chunks).2.isNone) (parted r.chunks).1 sent) := by
  obtain ⟨cs, cl⟩ := r
  unfold cRecvPub Handshake.cRecvPub
  rcases fill_pub (cs := cs) (cl := cl) ha with ⟨other, cs', e1, rest, e2, e3⟩ | ⟨r, e1, e2⟩ | ⟨acc', cs', e1, e2, e3, e4⟩
  · rw [e1]
    dsimp only
    rw [e2]
    dsimp only
    split
    · exact .failed rfl hw
    · have := cRecvSecret_same (A := A) (own := own) (got := []) (w := newW (D.dh keys.secret other) w) (r := newR (D.dh keys.secret other) { chunks := cs', closed := cl }) (wire := wire) (sent := sent) hw (by simp)
        (by intro acc ha; cases ha)
      simp only [newR, e3] at this
      exact this
  · rw [e1]
    dsimp only
    rw [e2]
    exact .failed rfl hw
  · rw [e1]
    dsimp only
    rw [e2]
    exact .pending (.recvPub e3) hw rfl e4

theorem cFlushPub_same {own : Bytes} {w : Socket} {r : Script} {wire sent : Bytes} (hw : w.wire = wire ++ sent) :
    Matches cliEnds (CliSame own) cliSock cliReader wire r.closed (parted r.chunks).2 (lifted (cFlushPub socket socketR A D keys w r))
      (Handshake.cFlushPub A D keys (r.closed && (parted r.chunks).2.isNone) w.answers (parted r.chunks).1 sent) := by
  obtain ⟨as, wi⟩ := w
  unfold cFlushPub Handshake.cFlushPub
  rcases as with _ | ⟨n | _ | e, as⟩
  · exact .pending .flushPub hw rfl (rest_parted _)
  rotate_left
  · exact .pending .flushPub hw rfl (rest_parted _)
  · exact .failed rfl hw
  · exact cRecvPub_same (w := { answers := as, wire := wi }) hw (by simp)

theorem cSendPub_same {own rem : Bytes} {w : Socket} {r : Script} :
    Matches cliEnds (CliSame own) cliSock cliReader w.wire r.closed (parted r.chunks).2 (lifted (cSendPub socket socketR A D keys rem w r))
      (Handshake.clientPoll A D keys (.sendPub rem) (r.closed && (parted r.chunks).2.isNone) (parted r.chunks).1 w.answers) := by
  obtain ⟨as, wire⟩ := w
  unfold cSendPub Handshake.clientPoll
  rw [writeAll_socket]
  dsimp only
  rcases pollWriteAll rem as with ⟨_ | (e | u), wi, rem', as'⟩
  · exact .pending .sendPub rfl rfl (rest_parted _)
  · exact .failed rfl rfl
  · exact cFlushPub_same (w := { answers := as', wire := wire ++ wi }) rfl

theorem clientPoll_same (x : Exchange) (s : (Socket × Script) ⊕ CliPhase Socket Script) (ph : CPhase) (h : CliSame (D.pub x.client.secret) s ph) :
    Matches cliEnds (CliSame (D.pub x.client.secret)) cliSock cliReader (cliSock s).wire (cliReader s).closed (parted (cliReader s).chunks).2 ((client A D [x]).poll s)
      (Handshake.clientPoll A D x.client ph ((cliReader s).closed && (parted (cliReader s).chunks).2.isNone) (parted (cliReader s).chunks).1 (cliSock s).answers) := by
  cases h with
  | @start s => exact cSendPub_same (A := A) (D := D) (keys := x.client) (w := s.1) (r := s.2)
  | @sendPub rem w r => exact cSendPub_same (A := A) (D := D) (keys := x.client) (w := w) (r := r)
  | @flushPub w r => exact cFlushPub_same (A := A) (D := D) (keys := x.client) (w := w) (r := r) (sent := []) (List.append_nil _).symm
  | @recvPub acc w r ha => exact cRecvPub_same (A := A) (D := D) (keys := x.client) (w := w) (r := r) (sent := []) (List.append_nil _).symm ha
  | @recvSecret got w r hg hr => exact cRecvSecret_same (A := A) (w := w) (r := r) (sent := []) (List.append_nil _).symm hg hr

theorem client_same (x : Exchange) (sc : Script) (ps : List (List IoAns)) :
    ∃ ops σ, Side.run (Handshake.clientPoll A D x.client) (Handshake.clientInit D x.client) (.arrive sc.bytes :: ops) = some σ ∧ σ.got = sc.bytes ∧ ops.filterMap Spec.pollAnswers <+: ps ∧
      Outcome cliEnds (CliSame (D.pub x.client.secret)) cliSock cliReader (clientRuns A D [x] sc ps) σ ∧
      (∀ b s, clientRuns A D [x] sc ps = .pending b s → ops.filterMap Spec.pollAnswers = ps) ∧ (.close ∈ ops → sc.closed = true) := by
  have hk : (client A D [x]).sock = cliSock := by
    funext s
    rcases s with s | (_ | _ | _ | _) <;> rfl
  obtain ⟨ops, σ, h1, h2, h3, h4, h5, h6⟩ := run_same cliEnds (Handshake.clientPoll A D x.client) (client A D [x]) cliReader (CliSame (D.pub x.client.secret))
    (by intro s b ph h; cases h <;> constructor <;> assumption) (by intro s b; rcases s with s | (_ | _ | _ | _) <;> rfl) (by intro s b; rcases s with s | (_ | _ | _ | _) <;> rfl)
    (by rw [hk]; exact fun s ph h => clientPoll_same x s ph h) ps true (.inl ({}, sc)) { phase := .sendPub (D.pub x.client.secret), inbox := sc.bytes, got := sc.bytes } .start rfl rfl (by intro h; cases h)
  rw [hk] at h4
  exact ⟨ops, σ, h1, h2, h3, h4, h5, h6⟩

end Bromine.Layers
