import Verif.Lemmas.LayerDrop
import Verif.Spec.DropLink
/-
Connections with encrypted layers and dropped emits: the reader, and the link.
-/
namespace Bromine.Layers
open Bromine CryptIO Spec Props Link

section
variable {ρ : Type} {R : ReadT ρ} {closed : Bool}

/-- A read of the first bytes of a package that is there. -/
theorem Receives.drive_full (S : Receives R closed) (A : Aead) (l : Layer) (int : Bool) {i n : Nat} {p rest : Bytes} (h0 : 0 < n) (hn : n ≤ p.length) :
    ∀ (fuel : Nat) {s : ReadStream × ρ}, size R s.2 < fuel → LBefore S A l i p (some rest) s →
    ∃ s', Layers.drive (encryptedR R A) int n fuel [] s = .ok (p.take n, s') ∧ LAfter S l i (p.drop n) (some rest) s' := by
  intro fuel
  induction fuel with
  | zero => intro s h; omega
  | succ fuel ih =>
    rintro ⟨rs, r⟩ hf ⟨acc, p', hpos, hsz, h1, h2, h3, h4, h5, h6⟩
    obtain ⟨dec, rem, fut⟩ := rs
    dsimp only at h1 h2 h3 h6 hf
    subst h1 h2
    have hw := S.pollPackage h4 (decrypt_pkg (A := A) (l := l) (i := i) hsz).1 h6
    have hpoll : (encryptedR R A).pollRead ({ dec := decAt l i, fut := fut }, r) n = pollFutRead R A { dec := decAt l i, fut := some (.reading acc) } r n := by
      simp only [encryptedR]
      rcases h3 with ⟨rfl, rfl⟩ | rfl
      · simp [pollRead, h0]
      · simp [pollRead]
    unfold Layers.drive Layers.fill
    rw [if_neg (by simp; omega)]
    simp only [List.length_nil, Nat.sub_zero]
    rw [hpoll]
    unfold pollFutRead
    dsimp only
    generalize Layers.pollPackage R acc r = x at hw
    cases hw with
    | fail g1 g2 => cases g1
    | @pending acc' p'' r' g1 g2 g3 g4 =>
      have e : (if int = true then ([] : Bytes) else [] ++ []) = [] := by cases int <;> rfl
      dsimp only
      rw [e]
      refine ih ?_ ⟨acc', p'', hpos, hsz, rfl, rfl, .inr rfl, g1, g2, g3⟩
      rcases g4 with g4 | ⟨g4, -⟩
      · dsimp only; omega
      · cases g4
    | @done rest' r' g1 g2 g3 =>
      cases g1
      dsimp only
      rw [(decrypt_pkg (A := A) (l := l) (i := i) hsz).2]
      dsimp only
      rw [List.nil_append, if_pos hn]
      have hl : (p.take n).length = n := by rw [List.length_take]; omega
      cases htk : p.take n with
      | nil => rw [htk] at hl; simp at hl; omega
      | cons b bs =>
        rw [htk] at hl
        dsimp only
        rw [List.nil_append, Layers.fill, if_pos (by omega)]
        exact ⟨_, rfl, rest, rfl, rfl, g2⟩

/-- The first event of a package that is there is read; the rest of the package is kept. -/
theorem Receives.read_first (S : Receives R closed) (A : Aead) (l : Layer) {checks : Bool} {i : Nat} {e : Event} {p t rest : Bytes} {s : ReadStream × ρ} (hok : (S.layer A l).ok p.length)
    (hf : Event.fromBytes checks p = .ok (e, t)) (hne : t ≠ p) (h : (S.layer A l).idle i s ((S.layer A l).wrap i p ++ rest)) :
    ∃ s', Event.fromAsyncRead (source (encryptedR R A)) checks s = .ok (e, s') ∧ LAfter S l i t (some rest) s' := by
  have hb : LBefore S A l i p (some rest) s := by
    obtain ⟨rs, r⟩ := s
    obtain ⟨h1, h2⟩ := h
    dsimp only at h1 h2
    subst h1
    have hl := length_pkg A l i hok.2.1
    exact ⟨[], pkg A l i p, hok.1, hok.2.1, rfl, rfl, .inl ⟨rfl, rfl⟩, rfl, (by intro h; rw [h] at hl; simp at hl), S.start h2 (by rw [hl]; exact hok.2.2)⟩
  have key : ∀ (int : Bool) n (s : ReadStream × ρ) (t x t' : Bytes), (t = p ∧ LBefore S A l i p (some rest) s) ∨ LAfter S l i t (some rest) s → readExact n t = .ok (x, t') →
      ∃ s', Layers.drive (encryptedR R A) int n (((encryptedR R A).base s).chunks.length + 1) [] s = .ok (x, s') ∧
        ((t' = p ∧ LBefore S A l i p (some rest) s') ∨ LAfter S l i t' (some rest) s') := by
    intro int n s t x t' hs hr
    unfold readExact at hr
    split at hr
    · rename_i hn
      simp only [Outcome.ok.injEq, Prod.mk.injEq] at hr
      obtain ⟨rfl, rfl⟩ := hr
      rcases hs with ⟨rfl, hs⟩ | ⟨rest', g1, g2, g3⟩
      · by_cases h0 : n = 0
        · subst h0
          refine ⟨s, ?_, .inl ⟨rfl, hs⟩⟩
          unfold Layers.drive Layers.fill
          simp
        · obtain ⟨s', k1, k2⟩ := S.drive_full A l int (by omega) hn (size R s.2 + 1) (Nat.lt_succ_self _) hs
          exact ⟨s', k1, .inr k2⟩
      · obtain ⟨rs, r⟩ := s
        dsimp only at g2 g3
        subst g2
        exact ⟨_, drive_there hn, .inr ⟨rest', g1, rfl, g3⟩⟩
    · cases hr
  obtain ⟨r', h1, h2⟩ := fromAsyncRead_rel (S := source (encryptedR R A)) (T := byteSource) (fun s t => (t = p ∧ LBefore S A l i p (some rest) s) ∨ LAfter S l i t (some rest) s)
    (fun n s t x t' _ hr h => key true n s t x t' hr h) (fun n s t x t' hr h => key false n s t x t' hr h) (.inl ⟨rfl, hb⟩) hf
  rcases h2 with ⟨h2, -⟩ | h2
  · exact absurd h2 hne
  · exact ⟨r', h1, h2⟩

/-- An event at the start of the plaintext that is left is read. -/
theorem read_there {A : Aead} {d : Decryptor} {r : ρ} {checks : Bool} {e : Event} {t t' : Bytes} (hf : Event.fromBytes checks t = .ok (e, t')) :
    Event.fromAsyncRead (source (encryptedR R A)) checks ({ dec := d, remaining := t, fut := none }, r) = .ok (e, { dec := d, remaining := t', fut := none }, r) := by
  have key : ∀ (int : Bool) n (s : ReadStream × ρ) (t x t' : Bytes), s = ({ dec := d, remaining := t, fut := none }, r) → readExact n t = .ok (x, t') →
      ∃ s', Layers.drive (encryptedR R A) int n (((encryptedR R A).base s).chunks.length + 1) [] s = .ok (x, s') ∧ s' = ({ dec := d, remaining := t', fut := none }, r) := by
    rintro int n s t x t' rfl hr
    unfold readExact at hr
    split at hr
    · rename_i hn
      simp only [Outcome.ok.injEq, Prod.mk.injEq] at hr
      obtain ⟨rfl, rfl⟩ := hr
      exact ⟨_, drive_there hn, rfl⟩
    · cases hr
  obtain ⟨r', h1, rfl⟩ := fromAsyncRead_rel (S := source (encryptedR R A)) (T := byteSource) (fun (s : ReadStream × ρ) t => s = ({ dec := d, remaining := t, fut := none }, r))
    (fun n s t x t' _ hr h => key true n s t x t' hr h) (fun n s t x t' hr h => key false n s t x t' hr h) rfl hf
  exact h1

end

/-! ### The link -/

/-- The events that the layers carry if emits are dropped: a package can hold up to 1023 bytes of earlier frames. -/
abbrev CarryDrop (ls : List Layer) (e : Event) : Prop := Fits e ∧ frameSize e + 1024 + 20 * ls.length + 16 < 2 ^ 32

theorem CarryDrop.small {ls : List Layer} {e : Event} (h : CarryDrop ls e) : Small e := ⟨h.1, by have := h.2; omega⟩

theorem CarryDrop.ok {A : Aead} (l : Layer) {ls : List Layer} {e : Event} (h : CarryDrop ls e) : ∀ n, 0 < n → n < (Wire.frame e).length + WRITE_BUF_SIZE → LOk (sends A ls) n := by
  intro n h0 hn
  have := h.2
  rw [length_frame] at hn
  unfold WRITE_BUF_SIZE at hn
  exact sends_ok A (l :: ls) (okL_of l ls h0 (by omega))

theorem receives_ok' (A : Aead) (closed : Bool) : ∀ (ls : List Layer) {n}, (sends A ls).ok n → (receives A closed ls).ok n := by
  intro ls
  induction ls with
  | nil => intro n h; exact h
  | cons l ls ih => intro n h; exact ⟨h.1, h.2.1, ih h.2.2⟩

theorem wraps_same (A : Aead) (closed : Bool) (ls : List Layer) (i : Nat) (f : Bytes) : (receives A closed ls).wrap i f = (sends A ls).wrap i f := by
  rw [sends_wrap, receives_wrap]

/-- The invariant: `groups` are the events of the packages, `pend` those in the buffer; the receiver has taken in the packages `gs`, of which `left` has not been read yet. -/
structure DInvL (A : Aead) (l : Layer) (ls : List Layer) (s : LState (ls.length + 1)) (em rd : List Event) (groups : List (List Event)) (pend : List Event) (gs : List (List Event)) (left : List Event) : Prop where
  good : Good (sends A ls) A l groups pend s.w
  sub : (groups.flatten ++ pend).Sublist em
  held : ∀ st, s.cur = some st → ∃ em0 e, em = em0 ++ [e] ∧ AtStage e st s.w.1 ∧ (s.w.1.futWrite = none → st ≠ .flushing → (groups.flatten ++ pend).Sublist em0)
  taken : gs <+: groups
  order : rd ++ left = gs.flatten
  rs : s.r.1 = { dec := decAt l gs.length, remaining := framesOf left }
  rest : (receives A false ls).idle gs.length s.r.2 (flat ((layersR A ls.length).base s.r.2).chunks)
  unread : packs (sends A ls) A l 0 gs ++ flat ((layersR A ls.length).base s.r.2).chunks = ((layersW A ls.length).base s.w.2).wire.take s.sent
  sent : s.sent ≤ ((layersW A ls.length).base s.w.2).wire.length

theorem fine_not_bad {as : List IoAns} (h : fineAns as = true) : ¬ Bad as := by
  rintro ⟨a, ha, h1, h2⟩
  simp only [fineAns, List.all_eq_true] at h
  have := h a ha
  cases a with
  | pending => exact h1 rfl
  | fail e => simp at this
  | ready n =>
    cases n with
    | zero => simp at this
    | succ n => exact h2 n rfl

theorem frame_pos (e : Event) : 0 < (Wire.frame e).length := by rw [length_frame]; unfold frameSize; omega

section
variable {A : Aead} {l : Layer} {ls : List Layer} {s s' : LState (ls.length + 1)} {em rd : List Event} {groups : List (List Event)} {pend : List Event} {gs : List (List Event)} {left : List Event}

theorem dinv_init (A : Aead) (l : Layer) (ls : List Layer) (checks : Bool) : DInvL A l ls (layeredDrops A (l :: ls) checks).init [] [] [] [] [] [] := by
  have hidle_base := fun {i : Nat} {r : RState ls.length} {b : Bytes} (h : (receives A false ls).idle i r b) => (receives A false ls).idle_base h
  have hw : ((layersW A ls.length).base (startW ls)).wire = [] := congrArg Socket.wire (base_startW A ls)
  have hr := receives_start A { chunks := [], closed := false } ls
  have hb : flat ((layersR A ls.length).base (startR { chunks := [], closed := false } ls)).chunks = [] := (hidle_base hr).2
  refine ⟨⟨⟨[], ?_, ?_⟩, rfl, by decide, by simp, by simp⟩, by simp, ?_, List.prefix_rfl, rfl, rfl, ?_, ?_, Nat.zero_le _⟩
  · exact HShape.idle (gs := []) (buf := []) ⟨[], by simp, rfl, by simp⟩ (sends_start A ls)
  · show ((layersW A ls.length).base (startW ls)).wire ++ [] = _
    rw [hw]; rfl
  · intro st hst; cases hst
  · show (receives A false ls).idle 0 (startR { chunks := [], closed := false } ls) (flat ((layersR A ls.length).base (startR { chunks := [], closed := false } ls)).chunks)
    rw [hb]; exact hr
  · show [] ++ flat ((layersR A ls.length).base (startR { chunks := [], closed := false } ls)).chunks = ((layersW A ls.length).base (startW ls)).wire.take 0
    rw [hb]; rfl

/-- What the emitter of `e` is told by a poll, and where the write half is then. -/
inductive Answered (A : Aead) (e : Event) (why : Prop) (fl : Option FlushFut) (wire : Bytes) (s' : LState (ls.length + 1)) : Poll Unit → Stage → Prop
  | pending {st} : s'.cur = some st → AtStage e st s'.w.1 → (∀ rem, st = .writing rem → s'.w.1.futWrite ≠ none) → ¬ why → Answered A e why fl wire s' (.pending true) st
  | ready {st} : s'.cur = none → s'.w.1.futWrite = none → s'.w.1.futFlush = none → ¬ why → Answered A e why fl wire s' (.ready (.ok ())) st
  | panic {st} : s'.cur = none → s'.w.1.futWrite = none → s'.w.1.futFlush = fl → why → s'.wire A = wire → Answered A e why fl wire s' .panic st

/-- A poll. -/
theorem dinv_poll {as : List IoAns} (ih : DInvL A l ls s em rd groups pend gs left) (hg : ∀ e ∈ em, CarryDrop ls e) (hs : dropStep A (n := ls.length + 1) s (.poll as) = some s') :
    ∃ st em0 e, s.cur = some st ∧ em = em0 ++ [e] ∧ AtStage e st s.w.1 ∧ DInvL A l ls s' em rd (took e st s.w.1 groups pend).1 (took e st s.w.1 groups pend).2 gs left ∧
      Answered A e (Panics e st s.w.1) s.w.1.futFlush (s.wire A) s'
        (pollEmit (layersW A (ls.length + 1)) ((layersW A (ls.length + 1)).setBase s.w { (layersW A (ls.length + 1)).base s.w with answers := as }) st).1
        (pollEmit (layersW A (ls.length + 1)) ((layersW A (ls.length + 1)).setBase s.w { (layersW A (ls.length + 1)).base s.w with answers := as }) st).2.1 := by
  obtain ⟨⟨ws, t⟩, cur, sent, ⟨rs, r⟩⟩ := s
  simp only [dropStep] at hs
  cases cur with
  | none => cases hs
  | some st =>
    dsimp only at hs
    split at hs
    · rename_i hfine
      obtain ⟨em0, e, h1, h2, h3⟩ := ih.held st rfl
      have hge := hg e (by rw [h1]; simp)
      have hset := ih.good.set as
      have k3 := drop_emit (e := e) (st := st) hset h2 (by dsimp only; rw [(sends A ls).base_set]; exact fine_not_bad hfine) (frame_pos e) (hge.ok l)
      change DEmit (S := sends A ls) (A := A) (l := l) _ _ _ (took e st ws groups pend).1 (took e st ws groups pend).2 e (pollEmit (layersW A (ls.length + 1)) ((layersW A (ls.length + 1)).setBase (ws, t) { (layersW A (ls.length + 1)).base (ws, t) with answers := as }) st) at k3
      have hb0 : ((layersW A ls.length).base t).wire = ((layersW A (ls.length + 1)).base ((layersW A (ls.length + 1)).setBase (ws, t) { (layersW A (ls.length + 1)).base (ws, t) with answers := as })).wire :=
        (congrArg Socket.wire ((layers_append A (ls.length + 1)).base_set (ws, t) { (layersW A (ls.length + 1)).base (ws, t) with answers := as })).symm
      have hap := List.IsPrefix.trans ⟨[], (List.append_nil _).trans hb0⟩ (emit_appends (layers_append A (ls.length + 1)) ((layersW A (ls.length + 1)).setBase (ws, t) { (layersW A (ls.length + 1)).base (ws, t) with answers := as }) st)
      clear hb0
      have k1 := took_prefix e st ws groups pend
      have hsub : ((took e st ws groups pend).1.flatten ++ (took e st ws groups pend).2).Sublist em := by
        refine (took_sub e st ws groups pend).trans ?_
        split
        · rename_i hc
          rw [h1]
          exact (h3 hc.1 hc.2).append (List.Sublist.refl _)
        · rw [List.append_nil]; exact ih.sub
      have hread : ∀ {wire' : Bytes}, ((layersW A ls.length).base t).wire <+: wire' →
          packs (sends A ls) A l 0 gs ++ flat ((layersR A ls.length).base r).chunks = wire'.take sent ∧ sent ≤ wire'.length := by
        rintro wire' ⟨x, rfl⟩
        exact ⟨by rw [List.take_append_of_le_length ih.sent]; exact ih.unread, by have := ih.sent; dsimp only at this; rw [List.length_append]; omega⟩
      refine ⟨st, em0, e, rfl, h1, h2, ?_⟩
      dsimp only
      generalize hx : pollEmit (layersW A (ls.length + 1)) ((layersW A (ls.length + 1)).setBase (ws, t) { (layersW A (ls.length + 1)).base (ws, t) with answers := as }) st = x at hs ⊢
      have k3 := hx ▸ k3
      have hap : ((layersW A ls.length).base t).wire <+: ((layersW A (ls.length + 1)).base x.2.2).wire := by rw [← hx]; exact hap
      clear hx
      cases k3 with
      | @pending st' s1 g1 g2 g3 g4 =>
        cases hs
        obtain ⟨u1, u2⟩ := hread hap
        refine ⟨⟨g1, hsub, ?_, ih.taken.trans k1, ih.order, ih.rs, ih.rest, u1, u2⟩, .pending rfl g2 g3 g4⟩
        intro st'' hst''
        cases hst''
        refine ⟨em0, e, h1, g2, fun hn hne => ?_⟩
        cases st' with
        | flushing => exact absurd rfl hne
        | writing rem => exact absurd hn (g3 rem rfl)
      | @ready st' s1 g1 g2 g3 g4 =>
        cases hs
        obtain ⟨u1, u2⟩ := hread hap
        exact ⟨⟨g1, hsub, (by intro st'' hst''; cases hst''), ih.taken.trans k1, ih.order, ih.rs, ih.rest, u1, u2⟩, .ready rfl g2 g3 g4⟩
      | @panic st' s1 g1 g2 g3 g4 g5 =>
        cases hs
        obtain ⟨u1, u2⟩ := hread hap
        refine ⟨⟨g1, hsub, (by intro st'' hst''; cases hst''), ih.taken.trans k1, ih.order, ih.rs, ih.rest, u1, u2⟩, .panic rfl g2 g3 g4 ?_⟩
        have hb1 : ((layersW A ls.length).base ((layersW A ls.length).setBase t { (layersW A ls.length).base t with answers := as })).wire = ((layersW A ls.length).base t).wire := by
          rw [(sends A ls).base_set]
        exact (congrArg Socket.wire g5).trans hb1
    · cases hs

/-- The steps that do not write. -/
theorem dinv_other {o : Link.DropOp} (ih : DInvL A l ls s em rd groups pend gs left) (ho : ∀ as, o ≠ .poll as) (hs : dropStep A (n := ls.length + 1) s o = some s') :
    DInvL A l ls s' em rd groups pend gs left ∧ s'.w = s.w ∧ (o = .drop → s.cur.isSome ∧ s'.cur = none) ∧ (o ≠ .drop → s'.cur = s.cur) := by
  obtain ⟨⟨ws, t⟩, cur, sent, ⟨rs, r⟩⟩ := s
  cases o with
  | poll as => exact absurd rfl (ho as)
  | drop =>
    simp only [dropStep] at hs
    cases cur with
    | none => cases hs
    | some st =>
      cases hs
      exact ⟨⟨ih.good, ih.sub, (by intro st'' hst''; cases hst''), ih.taken, ih.order, ih.rs, ih.rest, ih.unread, ih.sent⟩, rfl, fun _ => ⟨rfl, rfl⟩, fun h => absurd rfl h⟩
  | deliver n =>
    simp only [dropStep, layersStep] at hs
    obtain ⟨⟨k, cs⟩, hd, rfl⟩ := Option.map_eq_some_iff.1 hs
    have hb := (receives A false ls).base_set r { chunks := cs, closed := false }
    have hd : deliver ((layersW A ls.length).base t).wire sent n ((layersR A ls.length).base r).chunks = some (k, cs) := hd
    simp only [deliver] at hd
    split at hd
    · rename_i hle
      cases hd
      refine ⟨⟨ih.good, ih.sub, ih.held, ih.taken, ih.order, ih.rs, ?_, ?_, hle⟩, rfl, (by simp), fun _ => rfl⟩
      · show (receives A false ls).idle gs.length ((layersR A ls.length).setBase r _) (flat ((layersR A ls.length).base ((layersR A ls.length).setBase r _)).chunks)
        rw [hb]
        exact (receives A false ls).idle_set _ ih.rest rfl
      · show packs (sends A ls) A l 0 gs ++ flat ((layersR A ls.length).base ((layersR A ls.length).setBase r _)).chunks = ((layersW A ls.length).base t).wire.take _
        rw [hb]
        have hu := ih.unread
        dsimp only at hu
        have h0 : flat [] = [] := rfl
        dsimp only
        rw [flat_append, flat_pushRest, h0, List.append_nil, ← List.append_assoc, hu]
        rw [show sent + n + 1 = sent + (n + 1) by omega, List.take_add (i := sent) (j := n + 1)]
    · cases hd
  | wait =>
    simp only [dropStep, layersStep] at hs
    cases hs
    have hb := (receives A false ls).base_set r { chunks := ((layersR A ls.length).base r).chunks ++ [.pending], closed := false }
    have hf : flat (((layersR A ls.length).base r).chunks ++ [.pending]) = flat ((layersR A ls.length).base r).chunks := by
      rw [flat_append, show flat [Chunk.pending] = [] from rfl, List.append_nil]
    refine ⟨⟨ih.good, ih.sub, ih.held, ih.taken, ih.order, ih.rs, ?_, ?_, ih.sent⟩, rfl, (by simp), fun _ => rfl⟩
    · show (receives A false ls).idle gs.length ((layersR A ls.length).setBase r _) (flat ((layersR A ls.length).base ((layersR A ls.length).setBase r { chunks := ((layersR A ls.length).base r).chunks ++ [.pending], closed := false })).chunks)
      rw [hb]
      exact (receives A false ls).idle_set { chunks := ((layersR A ls.length).base r).chunks ++ [.pending], closed := false } ih.rest rfl
    · show packs (sends A ls) A l 0 gs ++ flat ((layersR A ls.length).base ((layersR A ls.length).setBase r { chunks := ((layersR A ls.length).base r).chunks ++ [.pending], closed := false })).chunks = _
      rw [hb]
      dsimp only
      rw [hf]
      exact ih.unread

/-- An emit gets the connection. -/
theorem dinv_emit {checks : Bool} {e : Event} (ih : DInvL A l ls s em rd groups pend gs left) (hs : (layeredDrops A (l :: ls) checks).emit s e = some s') :
    DInvL A l ls s' (em ++ [e]) rd groups pend gs left ∧ s'.w = s.w ∧ s.cur = none ∧ s'.cur = some (.writing (Wire.frame e)) := by
  obtain ⟨w, cur, sent, r⟩ := s
  cases cur with
  | some st => cases hs
  | none =>
    cases hs
    refine ⟨⟨ih.good, ih.sub.trans (List.sublist_append_left _ _), ?_, ih.taken, ih.order, ih.rs, ih.rest, ih.unread, ih.sent⟩, rfl, rfl, rfl⟩
    intro st hst
    cases hst
    exact ⟨em, e, rfl, rfl, fun _ _ => ih.sub⟩

/-- An event is read. -/
theorem dinv_read {checks : Bool} {e : Event} (ih : DInvL A l ls s em rd groups pend gs left) (hg : ∀ e ∈ em, CarryDrop ls e) (hs : (layeredDrops A (l :: ls) checks).read s = some (e, s')) :
    (∃ gs left, DInvL A l ls s' em (rd ++ [e]) groups pend gs left) ∧ s'.w = s.w ∧ s'.cur = s.cur := by
  have hidle_base := fun {i : Nat} {r : RState ls.length} {b : Bytes} (h : (receives A false ls).idle i r b) => (receives A false ls).idle_base h
  obtain ⟨r0, hro, rfl⟩ := layered_read.1 hs
  refine ⟨?_, rfl, rfl⟩
  clear hs
  obtain ⟨w, cur, sent, ⟨rs, r⟩⟩ := s
  have hrs := ih.rs
  have hrest := ih.rest
  have hunread := ih.unread
  dsimp only at hrs hrest hunread
  subst hrs
  change Event.fromAsyncRead (source (encryptedR (layersR A ls.length) A)) checks ({ dec := decAt l gs.length, remaining := framesOf left }, r) = _ at hro
  have hsm : ∀ e ∈ groups.flatten, Small e := fun e he => (hg e (ih.sub.subset (List.mem_append_left _ he))).small
  obtain ⟨more, hmore⟩ := ih.taken
  cases left with
  | cons e0 left =>
    have hse : Small e0 := hsm e0 (by rw [← hmore, List.flatten_append, ← ih.order]; simp)
    rw [framesOf_cons, read_there (Props.fromBytes_frame_append checks hse _)] at hro
    cases hro
    exact ⟨gs, left, ih.good, ih.sub, ih.held, ⟨more, hmore⟩, by rw [← ih.order]; simp, rfl, hrest, hunread, ih.sent⟩
  | nil =>
    -- what the socket of the reader has is the beginning of the packages that come next
    have hpre : flat ((layersR A ls.length).base r).chunks <+: packs (sends A ls) A l gs.length more := by
      obtain ⟨⟨rr, -, hw⟩, -⟩ := ih.good
      rw [← hmore, packs_append, Nat.zero_add] at hw
      have h1 : packs (sends A ls) A l 0 gs ++ flat ((layersR A ls.length).base r).chunks <+: packs (sends A ls) A l 0 gs ++ packs (sends A ls) A l gs.length more := by
        rw [hunread, ← hw]
        exact (List.take_prefix _ _).trans (List.prefix_append _ _)
      rwa [List.prefix_append_right_inj] at h1
    have hidle : ((receives A false ls).layer A l).idle gs.length (({ dec := decAt l gs.length, remaining := framesOf [] } : ReadStream), r) (flat ((layersR A ls.length).base r).chunks) := ⟨rfl, hrest⟩
    cases more with
    | nil =>
      exfalso
      have hz : flat ((layersR A ls.length).base r).chunks = [] := List.prefix_nil.1 hpre
      rw [hz] at hidle
      rw [((receives A false ls).layer A l).read_nothing (checks := checks) hidle] at hro
      cases hro
    | cons g more =>
      have hgm : g ∈ groups := by rw [← hmore]; simp
      obtain ⟨hgne, hgok⟩ := ih.good.ne g hgm
      have hok : ((receives A false ls).layer A l).ok (framesOf g).length := ⟨hgok.1, hgok.2.1, receives_ok' A false ls hgok.2.2⟩
      have hwr : ((receives A false ls).layer A l).wrap gs.length (framesOf g) = (sends A ls).wrap gs.length (pkg A l gs.length (framesOf g)) := wraps_same A false ls _ _
      simp only [packs] at hpre
      rcases Classical.em (∃ rest, flat ((layersR A ls.length).base r).chunks = (sends A ls).wrap gs.length (pkg A l gs.length (framesOf g)) ++ rest) with ⟨rest, hrst⟩ | hno
      · cases g with
        | nil => exact absurd rfl hgne
        | cons e0 g =>
          have hse : Small e0 := hsm e0 (List.mem_flatten.2 ⟨e0 :: g, hgm, by simp⟩)
          rw [hrst, ← hwr] at hidle
          obtain ⟨s', k1, rest', k2, k3, k4⟩ := (receives A false ls).read_first A l (checks := checks) (e := e0) (t := framesOf g) hok
            (by rw [framesOf_cons]; exact Props.fromBytes_frame_append checks hse _)
            (fun h => by have := congrArg List.length h; rw [framesOf_cons, List.length_append] at this; have := frame_pos e0; omega) hidle
          rw [k1] at hro
          cases hro
          cases k2
          obtain ⟨rs', r'⟩ := r0
          have hb := (hidle_base k4).2
          have hl : gs.length + 1 = (gs ++ [e :: g]).length := by simp
          dsimp only at k3 k4 hb
          refine ⟨gs ++ [e :: g], g, ih.good, ih.sub, ih.held, ⟨more, by rw [← hmore]; simp⟩, ?_, ?_, ?_, ?_, ih.sent⟩
          · have := ih.order
            rw [List.append_nil] at this
            rw [List.flatten_append, ← this]; simp
          · dsimp only
            rw [← hl]; exact k3
          · dsimp only
            rw [hb, ← hl]; exact k4
          · dsimp only
            rw [hb, packs_snoc, List.append_assoc, ← hrst]
            exact hunread
      · exfalso
        have hcut : ∀ z, flat ((layersR A ls.length).base r).chunks ++ z = (sends A ls).wrap gs.length (pkg A l gs.length (framesOf g)) → z ≠ [] → False := by
          intro z hz hne
          rw [(receives A false ls).read_cut A l (checks := checks) hok (by rw [hwr]; exact hz) hne hidle] at hro
          cases hro
        rcases List.prefix_or_prefix_of_prefix hpre (List.prefix_append _ _) with ⟨z, hz⟩ | ⟨z, hz⟩
        · refine hcut z hz ?_
          rintro rfl
          exact hno ⟨[], by rw [List.append_nil] at hz ⊢; exact hz⟩
        · exact hno ⟨z, hz.symm⟩

end

theorem layeredDrop_inv (A : Aead) (l : Layer) (ls : List Layer) (checks : Bool) {s : (layeredDrops A (l :: ls) checks).State} {em rd : List Event}
    (h : Hist (layeredDrops A (l :: ls) checks) s em rd) (hg : ∀ e ∈ em, CarryDrop ls e) : ∃ groups pend gs left, DInvL A l ls s em rd groups pend gs left := by
  induction h with
  | init => exact ⟨_, _, _, _, dinv_init A l ls checks⟩
  | @step s s' em rd o h hs ih =>
    obtain ⟨groups, pend, gs, left, ih⟩ := ih hg
    by_cases ho : ∃ as, o = .poll as
    · obtain ⟨as, rfl⟩ := ho
      obtain ⟨st, em0, e, -, -, -, h1, -⟩ := dinv_poll ih hg hs
      exact ⟨_, _, _, _, h1⟩
    · exact ⟨_, _, _, _, (dinv_other ih (fun as h => ho ⟨as, h⟩) hs).1⟩
  | @emit s s' em rd e h hs ih =>
    obtain ⟨groups, pend, gs, left, ih⟩ := ih fun e' he' => hg e' (by simp [he'])
    exact ⟨_, _, _, _, (dinv_emit ih hs).1⟩
  | @read s s' em rd e h hs ih =>
    obtain ⟨groups, pend, gs, left, ih⟩ := ih hg
    obtain ⟨⟨gs, left, h1⟩, -⟩ := dinv_read ih hg hs
    exact ⟨_, _, _, _, h1⟩

theorem layeredDrops_losesAtMost (A : Aead) (l : Layer) (ls : List Layer) (checks : Bool) : (layeredDrops A (l :: ls) checks).LosesAtMost (CarryDrop ls) := by
  intro s em rd h hg
  obtain ⟨groups, pend, gs, left, hi⟩ := layeredDrop_inv A l ls checks h hg
  obtain ⟨more, hmore⟩ := hi.taken
  refine List.Sublist.trans ?_ hi.sub
  rw [← hmore, List.flatten_append, ← hi.order]
  simp only [List.append_assoc]
  exact List.sublist_append_left _ _

end Bromine.Layers
