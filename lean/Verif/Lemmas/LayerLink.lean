import Verif.Lemmas.LayersRead
import Verif.Lemmas.FairLink
/-
Connections with encrypted layers of any depth.
-/
namespace Bromine.Layers
open Bromine CryptIO Spec Props Link

/-- The bytes of frame `f`, number `i`, on the wire of the socket. -/
def wrapL (A : Aead) : List Layer → Nat → Bytes → Bytes
  | [], _, f => f
  | l :: ls, i, f => wrapL A ls i (pkg A l i f)

/-- The length of frames that can be sent. -/
def okL : List Layer → Nat → Prop
  | [], n => 0 < n
  | _ :: ls, n => 0 < n ∧ n + 16 < 2 ^ 32 ∧ okL ls (n + 20)

theorem okL_of : ∀ (l : Layer) (ls : List Layer) {n : Nat}, 0 < n → n + 20 * ls.length + 16 < 2 ^ 32 → okL (l :: ls) n := by
  intro l ls
  induction ls generalizing l with
  | nil => intro n h h'; simp only [List.length_nil] at h'; exact ⟨h, by omega, (by show 0 < n + 20; omega)⟩
  | cons l' ls ih => intro n h h'; simp only [List.length_cons] at h'; exact ⟨h, by omega, ih l' (by omega) (by omega)⟩

/-- The layers send. -/
def sends (A : Aead) : (ls : List Layer) → Sends (layersW A ls.length)
  | [] => socketSends
  | l :: ls => (sends A ls).layer A l

/-- The layers receive. -/
def receives (A : Aead) (closed : Bool) : (ls : List Layer) → Receives (layersR A ls.length) closed
  | [] => socketReceives closed
  | l :: ls => (receives A closed ls).layer A l

theorem sends_wrap (A : Aead) (ls : List Layer) : ∀ i f, (sends A ls).wrap i f = wrapL A ls i f := by
  induction ls with
  | nil => intro i f; rfl
  | cons l ls ih => intro i f; exact ih i _

theorem receives_wrap (A : Aead) (closed : Bool) (ls : List Layer) : ∀ i f, (receives A closed ls).wrap i f = wrapL A ls i f := by
  induction ls with
  | nil => intro i f; rfl
  | cons l ls ih => intro i f; exact ih i _

theorem sends_ok (A : Aead) (ls : List Layer) : ∀ {n}, okL ls n → (sends A ls).ok n := by
  induction ls with
  | nil => intro n h; exact h
  | cons l ls ih => intro n h; exact ⟨h.1, h.2.1, ih h.2.2⟩

theorem receives_ok (A : Aead) (closed : Bool) (ls : List Layer) : ∀ {n}, okL ls n → (receives A closed ls).ok n := by
  induction ls with
  | nil => intro n h; exact h
  | cons l ls ih => intro n h; exact ⟨h.1, h.2.1, ih h.2.2⟩

theorem sends_start (A : Aead) : ∀ ls : List Layer, (sends A ls).idle 0 (startW ls) := by
  intro ls
  induction ls with
  | nil => trivial
  | cons l ls ih => exact ⟨⟨l.log, ⟨[], by simp, rfl, by simp⟩, rfl⟩, ih⟩

theorem receives_start (A : Aead) (sc : Script) : ∀ ls : List Layer, (receives A sc.closed ls).idle 0 (startR sc ls) (flat sc.chunks) := by
  intro ls
  induction ls with
  | nil => exact ⟨rfl, rfl⟩
  | cons l ls ih => exact ⟨rfl, ih⟩

theorem base_startW (A : Aead) : ∀ ls : List Layer, (layersW A ls.length).base (startW ls) = {} := by
  intro ls
  induction ls with
  | nil => rfl
  | cons l ls ih => exact ih

/-! ### Emits -/

/-- Where the emit of frame `f`, number `i`, is. -/
def Phase {τ : Type} {T : WriteT τ Socket} (S : Sends T) (i : Nat) (f : Bytes) : Stage → τ → Bytes → Prop
  | .writing rem, t, r => S.writing i f rem t r
  | .flushing, t, r => S.flushing i f t r

theorem polled_emit {τ : Type} {T : WriteT τ Socket} (S : Sends T) {i : Nat} {f : Bytes} {st : Stage} {t : τ} {r : Bytes} (h : Phase S i f st t r) :
    Polled (fun x : Stage × τ => T.base x.2) (T.base t) r (fun _ x r' => S.idle (i + 1) x.2 ∧ r' = []) (fun x r' => Phase S i f x.1 x.2 r') (pollEmit T t st) := by
  have hfl : ∀ {t : τ} {r : Bytes}, S.flushing i f t r →
      Polled (fun x : Stage × τ => T.base x.2) (T.base t) r (fun _ x r' => S.idle (i + 1) x.2 ∧ r' = []) (fun x r' => Phase S i f x.1 x.2 r') (pollFlushing T t) := by
    intro t r h
    have hw := S.flush h
    unfold pollFlushing
    generalize T.pollFlush t = x at hw
    cases hw with
    | error hb hd => exact .error hb hd
    | @pending t' r' h1 h2 h3 => exact .pending (t' := (Stage.flushing, t')) (r' := r') h1 h2 h3
    | ready h1 h2 => exact .ready h1 h2
  cases st with
  | flushing => exact hfl h
  | writing rem =>
    have hw := S.writeAll _ (Nat.le_refl _) h
    simp only [pollEmit]
    generalize Layers.writeAll T t rem = x at hw
    cases hw with
    | error hb hd => exact .error hb hd
    | @pending x r' h1 h2 h3 =>
      obtain ⟨rem', t'⟩ := x
      exact .pending (t' := (Stage.writing rem', t')) (r' := r') h1 h2 h3
    | @ready a x r' h1 h2 =>
      obtain ⟨rem', t'⟩ := x
      obtain ⟨-, h1, h3⟩ := h1
      exact Polled.after h2 h3 (hfl (S.written h1))

theorem Phase.set {τ : Type} {T : WriteT τ Socket} {S : Sends T} {i : Nat} {f : Bytes} {st : Stage} {t : τ} {r : Bytes} (b : Socket) (h : Phase S i f st t r) :
    Phase S i f st (T.setBase t b) r := by
  cases st with
  | writing rem => exact S.writing_set b h
  | flushing => exact S.flushing_set b h

/-! ### Every poll only appends to the wire -/

/-- Polls append to the wire. -/
structure Appends {τ : Type} (T : WriteT τ Socket) : Prop where
  write : ∀ t buf, (T.base t).wire <+: (T.base (T.pollWrite t buf).2).wire
  flush : ∀ t, (T.base t).wire <+: (T.base (T.pollFlush t).2).wire
  base_set : ∀ t b, T.base (T.setBase t b) = b

theorem Appends.writeAll {τ : Type} {T : WriteT τ Socket} (h : Appends T) : ∀ (n : Nat) (t : τ) (rem : Bytes), rem.length ≤ n →
    (T.base t).wire <+: (T.base (Layers.writeAll T t rem).2.2).wire := by
  intro n
  induction n with
  | zero =>
    intro t rem hn
    have : rem = [] := List.eq_nil_of_length_eq_zero (by omega)
    subst this
    unfold Layers.writeAll
    simp
  | succ n ih =>
    intro t rem hn
    unfold Layers.writeAll
    by_cases hr : rem = []
    · subst hr; simp
    · rw [dif_neg hr]
      have hw := h.write t rem
      have hp : 0 < rem.length := List.length_pos_iff.2 hr
      split <;> rename_i heq <;> rw [heq] at hw
      · exact hw
      · exact hw.trans (ih _ _ (by simp; omega))
      · exact hw
      · exact hw
      · exact hw

theorem Appends.layer {τ : Type} {T : WriteT τ Socket} (h : Appends T) (A : Aead) : Appends (encryptedW T A) := by
  have ff : ∀ ws t, (T.base t).wire <+: (T.base (pollFutFlush T ws t).2.2).wire := by
    intro ws t
    have hw := h.flush t
    unfold pollFutFlush
    split <;> rename_i heq <;> rw [heq] at hw <;> exact hw
  have fw : ∀ ws t rem len, (T.base t).wire <+: (T.base (pollFutWrite T ws t rem len).2.2).wire := by
    intro ws t rem len
    have hw := h.writeAll _ t rem (Nat.le_refl _)
    unfold pollFutWrite
    split <;> rename_i heq <;> rw [heq] at hw <;> exact hw
  have flw : ∀ ws t rem, (T.base t).wire <+: (T.base (pollFlushWrite T ws t rem).2.2).wire := by
    intro ws t rem
    have hw := h.writeAll _ t rem (Nat.le_refl _)
    unfold pollFlushWrite
    split <;> rename_i heq <;> rw [heq] at hw
    · exact hw.trans (ff _ _)
    · exact hw
    · exact hw
    · exact hw
  refine ⟨?_, ?_, fun t b => h.base_set t.2 b⟩
  · rintro ⟨ws, t⟩ buf
    show (T.base t).wire <+: (T.base (pollWrite T A (ws, t) buf).2.2).wire
    simp only [pollWrite]
    split
    · exact fw _ _ _ _
    · split
      · split
        · split
          · exact fw _ _ _ _
          · exact List.prefix_rfl
        · exact List.prefix_rfl
      · exact List.prefix_rfl
  · rintro ⟨ws, t⟩
    show (T.base t).wire <+: (T.base (pollFlush T A (ws, t)).2.2).wire
    simp only [pollFlush]
    split
    · exact flw _ _ _
    · exact ff _ _
    · split
      · split
        · split
          · exact flw _ _ _
          · exact List.prefix_rfl
        · exact ff _ _
      · exact List.prefix_rfl

theorem socket_appends : Appends socket := by
  refine ⟨?_, ?_, fun _ _ => rfl⟩
  · rintro ⟨as, w⟩ buf
    simp only [socket]
    split <;> simp
  · rintro ⟨as, w⟩
    simp only [socket]
    split <;> simp

theorem layers_append (A : Aead) : ∀ n, Appends (layersW A n) := by
  intro n
  induction n with
  | zero => exact socket_appends
  | succ n ih => exact ih.layer A

theorem emit_appends {τ : Type} {T : WriteT τ Socket} (h : Appends T) (t : τ) (st : Stage) : (T.base t).wire <+: (T.base (pollEmit T t st).2.2).wire := by
  have hf : ∀ t, (T.base t).wire <+: (T.base (pollFlushing T t).2.2).wire := fun t => h.flush t
  cases st with
  | flushing => exact hf t
  | writing rem =>
    have hw := h.writeAll _ t rem (Nat.le_refl _)
    simp only [pollEmit]
    split <;> rename_i heq <;> rw [heq] at hw
    · exact hw.trans (hf _)
    · exact hw
    · exact hw
    · exact hw

/-! ### The link -/

/-- The bytes of the events, the first of them number `i`. -/
def wraps (A : Aead) (ls : List Layer) : Nat → List Event → Bytes
  | _, [] => []
  | i, e :: es => wrapL A ls i (Wire.frame e) ++ wraps A ls (i + 1) es

theorem wraps_append (A : Aead) (ls : List Layer) (i : Nat) (a b : List Event) : wraps A ls i (a ++ b) = wraps A ls i a ++ wraps A ls (i + a.length) b := by
  induction a generalizing i with
  | nil => simp [wraps]
  | cons e a ih =>
    simp only [List.cons_append, wraps, ih, List.length_cons, List.append_assoc]
    rw [show i + 1 + a.length = i + (a.length + 1) by omega]

theorem wraps_snoc (A : Aead) (ls : List Layer) (em : List Event) (e : Event) : wraps A ls 0 (em ++ [e]) = wraps A ls 0 em ++ wrapL A ls em.length (Wire.frame e) := by
  rw [wraps_append]; simp [wraps]

/-- The events that the layers carry. -/
abbrev Carry (ls : List Layer) (e : Event) : Prop := Fits e ∧ frameSize e + 20 * ls.length + 16 < 2 ^ 32

theorem Carry.ok (l : Layer) {ls : List Layer} {e : Event} (h : Carry ls e) : okL (l :: ls) (Wire.frame e).length := by
  apply okL_of l ls
  · rw [length_frame]; unfold frameSize; omega
  · rw [length_frame]; exact h.2

theorem Carry.read {ls : List Layer} {e : Event} (h : Carry ls e) (checks : Bool) : Event.fromBytes checks (Wire.frame e) = .ok (e, []) :=
  fromBytes_frame checks ⟨h.1, by have := h.2; omega⟩

structure LInv (A : Aead) (l : Layer) (ls : List Layer) (s : LState (ls.length + 1)) (em rd : List Event) : Prop where
  free : s.cur = none → (sends A (l :: ls)).idle em.length s.w ∧ ((layersW A (ls.length + 1)).base s.w).wire = wraps A (l :: ls) 0 em
  held : ∀ st, s.cur = some st → ∃ em0 e r, em = em0 ++ [e] ∧ Phase (sends A (l :: ls)) em0.length (Wire.frame e) st s.w r ∧
    ((layersW A (ls.length + 1)).base s.w).wire ++ r = wraps A (l :: ls) 0 em
  reader : (receives A false (l :: ls)).idle rd.length s.r (flat ((layersR A (ls.length + 1)).base s.r).chunks)
  carried : Carried (wraps A (l :: ls) 0) ((layersW A (ls.length + 1)).base s.w).wire s.sent ((layersR A (ls.length + 1)).base s.r).chunks em rd

theorem layered_read {A : Aead} {ls : List Layer} {checks : Bool} {s s' : LState ls.length} {e : Event} : (layered A ls checks).read s = some (e, s') ↔
    ∃ r, Event.fromAsyncRead (source (layersR A ls.length)) checks s.r = .ok (e, r) ∧ s' = { s with r := r } := by
  simp only [layered]
  constructor
  · intro h
    split at h
    · rename_i e' r hr
      cases h
      exact ⟨r, hr, rfl⟩
    · cases h
  · rintro ⟨r, hr, rfl⟩
    rw [hr]

theorem layered_inv (A : Aead) (l : Layer) (ls : List Layer) (checks : Bool) {s : (layered A (l :: ls) checks).State} {em rd : List Event}
    (h : Hist (layered A (l :: ls) checks) s em rd) (hg : ∀ e ∈ em, Carry ls e) : LInv A l ls s em rd := by
  induction h with
  | init =>
    have hw : ((layersW A (ls.length + 1)).base (startW (l :: ls))).wire = [] := congrArg Socket.wire (base_startW A (l :: ls))
    have hr := receives_start A { chunks := [], closed := false } (l :: ls)
    have hb : flat ((layersR A (ls.length + 1)).base (startR { chunks := [], closed := false } (l :: ls))).chunks = [] := ((receives A false (l :: ls)).idle_base hr).2
    refine ⟨fun _ => ⟨sends_start A (l :: ls), hw⟩, ?_, ?_, ?_⟩
    · intro st hst; cases hst
    · show (receives A false (l :: ls)).idle 0 (startR { chunks := [], closed := false } (l :: ls)) (flat ((layersR A (ls.length + 1)).base (startR { chunks := [], closed := false } (l :: ls))).chunks)
      rw [hb]; exact hr
    · exact ⟨List.prefix_rfl, by rw [show ((layersW A (ls.length + 1)).base (layered A (l :: ls) checks).init.w).wire = [] from hw]; exact List.nil_prefix, Nat.zero_le _,
        by rw [show flat ((layersR A (ls.length + 1)).base (layered A (l :: ls) checks).init.r).chunks = [] from hb]; rfl⟩
  | @step s s' em rd o h hs ih =>
    have ih := ih hg
    change layersStep A (n := ls.length + 1) s o = some s' at hs
    cases o with
    | poll as =>
      simp only [layersStep] at hs
      split at hs
      · rename_i st hst
        obtain ⟨em0, e, r, h1, h2, h3⟩ := ih.held st hst
        have hp := polled_emit (sends A (l :: ls)) (h2.set { (layersW A (ls.length + 1)).base (LState.w s) with answers := as })
        have hbs := (sends A (l :: ls)).base_set (LState.w s) { (layersW A (ls.length + 1)).base (LState.w s) with answers := as }
        rw [hbs] at hp
        change Polled (fun x : Stage × WState (ls.length + 1) => (layersW A (ls.length + 1)).base x.2) _ r _ _
          (pollEmit (layersW A (ls.length + 1)) ((layersW A (ls.length + 1)).setBase (LState.w s) { (layersW A (ls.length + 1)).base (LState.w s) with answers := as }) st) at hp
        generalize pollEmit (layersW A (ls.length + 1)) ((layersW A (ls.length + 1)).setBase (LState.w s) { (layersW A (ls.length + 1)).base (LState.w s) with answers := as }) st = x at hp hs
        cases hp with
        | error hb => cases hs
        | @pending x r' g1 g2 g3 =>
          obtain ⟨st', w'⟩ := x
          cases hs
          obtain ⟨d, e1, e2⟩ := g2.wire
          dsimp only at e2
          have hw : ((layersW A (ls.length + 1)).base w').wire ++ r' = wraps A (l :: ls) 0 em := by rw [e2, List.append_assoc, ← e1]; exact h3
          refine ⟨by simp, ?_, ih.reader, ?_⟩
          · intro st'' hst''
            cases hst''
            exact ⟨em0, e, r', h1, g1, hw⟩
          · dsimp only
            rw [e2]
            have := ih.carried.more (w := d) (x := []) (by rw [List.append_nil, ← hw, e2]; exact List.prefix_append _ _)
            simpa using this
        | @ready a x r' g1 g2 =>
          obtain ⟨st', w'⟩ := x
          cases hs
          obtain ⟨g1, rfl⟩ := g1
          obtain ⟨d, e1, e2⟩ := g2.wire
          dsimp only at e2
          rw [List.append_nil] at e1
          have hw : ((layersW A (ls.length + 1)).base w').wire = wraps A (l :: ls) 0 em := by rw [e2, ← e1]; exact h3
          refine ⟨fun _ => ⟨by rw [h1, List.length_append]; exact g1, hw⟩, by simp, ih.reader, ?_⟩
          dsimp only
          rw [e2]
          have := ih.carried.more (w := d) (x := []) (by rw [List.append_nil, ← hw, e2]; exact List.prefix_rfl)
          simpa using this
      · cases hs
    | deliver n =>
      simp only [layersStep] at hs
      obtain ⟨⟨k, cs⟩, hd, rfl⟩ := Option.map_eq_some_iff.1 hs
      have hb := (receives A false (l :: ls)).base_set (LState.r s) { chunks := cs, closed := false }
      change (layersR A (ls.length + 1)).base ((layersR A (ls.length + 1)).setBase (LState.r s) { chunks := cs, closed := false }) = _ at hb
      refine ⟨ih.free, ih.held, ?_, ?_⟩
      · dsimp only
        rw [hb]
        exact (receives A false (l :: ls)).idle_set { chunks := cs, closed := false } ih.reader rfl
      · dsimp only
        rw [hb]
        exact ih.carried.deliver hd
    | wait =>
      simp only [layersStep] at hs
      cases hs
      have hb := (receives A false (l :: ls)).base_set (LState.r s) { chunks := ((layersR A (ls.length + 1)).base (LState.r s)).chunks ++ [.pending], closed := false }
      change (layersR A (ls.length + 1)).base ((layersR A (ls.length + 1)).setBase (LState.r s) _) = _ at hb
      refine ⟨ih.free, ih.held, ?_, ?_⟩
      · dsimp only
        rw [hb]
        exact (receives A false (l :: ls)).idle_set { chunks := ((layersR A (ls.length + 1)).base (LState.r s)).chunks ++ [.pending], closed := false } ih.reader rfl
      · dsimp only
        rw [hb]
        exact ih.carried.wait
  | @emit s s' em rd e h hs ih =>
    have ih := ih fun e' he' => hg e' (by simp [he'])
    change (match LState.cur s with
      | none => some ({ (show LState (ls.length + 1) from s) with cur := some (.writing (Wire.frame e)) } : LState (ls.length + 1))
      | some _ => none) = some s' at hs
    split at hs
    · rename_i hc
      cases hs
      obtain ⟨h1, h2⟩ := ih.free hc
      have hst := (sends A (l :: ls)).start h1 (sends_ok A (l :: ls) (Carry.ok l (hg e (by simp))))
      rw [sends_wrap] at hst
      refine ⟨by simp, ?_, ih.reader, ?_⟩
      · intro st hst'
        cases hst'
        exact ⟨em, e, _, rfl, hst, by rw [wraps_snoc]; dsimp only; rw [h2]⟩
      · have := ih.carried.more (w := []) (x := [e]) (by rw [List.append_nil, h2, wraps_snoc]; exact List.prefix_append _ _)
        simpa using this
    · cases hs
  | @read s s' em rd e h hs ih =>
    have ih := ih hg
    obtain ⟨r0, hro, rfl⟩ := layered_read.1 hs
    clear hs
    change Event.fromAsyncRead (source (layersR A (ls.length + 1))) checks (LState.r s) = _ at hro
    obtain ⟨tl, htl⟩ := ih.carried.pre
    have hu : flat ((layersR A (ls.length + 1)).base (LState.r s)).chunks <+: wraps A (l :: ls) rd.length tl := ih.carried.unread (by rw [← htl, wraps_append, Nat.zero_add])
    -- if the next package is cut off then nothing is read
    have hcut : ∀ f z, okL (l :: ls) f.length → flat ((layersR A (ls.length + 1)).base (LState.r s)).chunks ++ z = wrapL A (l :: ls) rd.length f → z ≠ [] → False := by
      intro f z hok hz hne
      have hwr : ((receives A false ls).layer A l).wrap rd.length f = wrapL A (l :: ls) rd.length f := receives_wrap A false (l :: ls) rd.length f
      have := (receives A false ls).read_cut A l (checks := checks) (receives_ok A false (l :: ls) hok) (by rw [hwr]; exact hz) hne ih.reader
      change Event.fromAsyncRead (source (layersR A (ls.length + 1))) checks (LState.r s) = _ at this
      rw [this] at hro
      cases hro
    cases tl with
    | nil =>
      exfalso
      simp only [wraps] at hu
      have hz : flat ((layersR A (ls.length + 1)).base (LState.r s)).chunks = [] := List.prefix_nil.1 hu
      have hr := ih.reader
      rw [hz] at hr
      have := (receives A false (l :: ls)).read_nothing (checks := checks) hr
      change Event.fromAsyncRead (source (layersR A (ls.length + 1))) checks (LState.r s) = _ at this
      rw [this] at hro
      cases hro
    | cons e0 tl =>
      have he0 := hg e0 (by rw [← htl]; simp)
      have hu' : flat ((layersR A (ls.length + 1)).base (LState.r s)).chunks <+: wrapL A (l :: ls) rd.length (Wire.frame e0) ++ wraps A (l :: ls) (rd.length + 1) tl := hu
      rcases Classical.em (∃ rest, flat ((layersR A (ls.length + 1)).base (LState.r s)).chunks = wrapL A (l :: ls) rd.length (Wire.frame e0) ++ rest) with ⟨rest, hrest⟩ | hno
      · have hidle := ih.reader
        rw [hrest, ← receives_wrap A false] at hidle
        obtain ⟨r', g1, g2⟩ := (receives A false (l :: ls)).read_event (checks := checks) (receives_ok A false (l :: ls) (Carry.ok l he0)) (Carry.read he0 checks) hidle
        change Event.fromAsyncRead (source (layersR A (ls.length + 1))) checks (LState.r s) = _ at g1
        rw [g1] at hro
        cases hro
        have hb := ((receives A false (l :: ls)).idle_base g2).2
        change flat ((layersR A (ls.length + 1)).base r0).chunks = rest at hb
        refine ⟨ih.free, ih.held, ?_, ?_⟩
        · dsimp only
          rw [hb, List.length_append]
          exact g2
        · exact ih.carried.read (b := wrapL A (l :: ls) rd.length (Wire.frame e)) ⟨tl, by rw [← htl]; simp⟩ (wraps_snoc A (l :: ls) rd e) (by dsimp only; rw [hb]; exact hrest)
      · exfalso
        rcases List.prefix_or_prefix_of_prefix hu' (List.prefix_append _ _) with ⟨z, hz⟩ | ⟨z, hz⟩
        · refine hcut (Wire.frame e0) z (Carry.ok l he0) hz ?_
          rintro rfl
          exact hno ⟨[], by rw [List.append_nil] at hz ⊢; exact hz⟩
        · exact hno ⟨z, hz.symm⟩

theorem not_bad_one : ¬ Bad [.ready 1] := by
  rintro ⟨a, ha, -, h⟩
  simp only [List.mem_singleton] at ha
  subst ha
  exact h 0 rfl

/-- A poll of the emit that holds the connection. -/
theorem layered_poll (A : Aead) (l : Layer) (ls : List Layer) {s : LState (ls.length + 1)} {em rd : List Event} (hi : LInv A l ls s em rd) {st : Stage} (hst : s.cur = some st)
    (as : List IoAns) :
    (∃ s', layersStep A s (.poll as) = some s' ∧ (s'.cur = none ∨ ((¬ HeadReady as ∨ ((layersW A (ls.length + 1)).base s.w).wire.length < ((layersW A (ls.length + 1)).base s'.w).wire.length)))) ∨
    (Bad as ∧ layersStep A s (.poll as) = none) := by
  obtain ⟨em0, e, r, h1, h2, h3⟩ := hi.held st hst
  have hp := polled_emit (sends A (l :: ls)) (h2.set { (layersW A (ls.length + 1)).base s.w with answers := as })
  have hbs := (sends A (l :: ls)).base_set s.w { (layersW A (ls.length + 1)).base s.w with answers := as }
  rw [hbs] at hp
  change Polled (fun x : Stage × WState (ls.length + 1) => (layersW A (ls.length + 1)).base x.2) _ r _ _
    (pollEmit (layersW A (ls.length + 1)) ((layersW A (ls.length + 1)).setBase s.w { (layersW A (ls.length + 1)).base s.w with answers := as }) st) at hp
  simp only [layersStep, hst]
  generalize pollEmit (layersW A (ls.length + 1)) ((layersW A (ls.length + 1)).setBase s.w { (layersW A (ls.length + 1)).base s.w with answers := as }) st = x at hp
  cases hp with
  | error hb => exact .inr ⟨hb.bad, rfl⟩
  | @pending x r' g1 g2 g3 =>
    obtain ⟨st', w'⟩ := x
    refine .inl ⟨_, rfl, .inr ?_⟩
    rcases g3 with g3 | g3
    · right
      obtain ⟨d, e1, e2⟩ := g2.wire
      dsimp only at e2 ⊢
      rw [e2, List.length_append]
      have : d ≠ [] := by rintro rfl; exact g3 (by simpa using e1.symm)
      have := List.length_pos_iff.2 this
      omega
    · exact .inl g3
  | @ready a x r' g1 g2 =>
    obtain ⟨st', w'⟩ := x
    exact .inl ⟨_, rfl, .inl rfl⟩

def layeredMoves (A : Aead) (l : Layer) (ls : List Layer) (checks : Bool) :
    Moves (layered A (l :: ls) checks) (Carry ls) ((Kind.layered A l ls).writes checks) ((Kind.layered A l ls).transports checks) where
  held := fun s : LState (ls.length + 1) => s.cur ≠ none
  wlen := fun s : LState (ls.length + 1) => ((layersW A (ls.length + 1)).base s.w).wire.length
  sent := fun s : LState (ls.length + 1) => s.sent
  size := fun es => (wraps A (l :: ls) 0 es).length
  size_mono := by intro a b; simp only [wraps_append, List.length_append]; omega
  can_write := by
    intro s em rd h hg hh
    have hi := layered_inv A l ls checks h hg
    obtain ⟨st, hst⟩ := Option.ne_none_iff_exists'.1 hh
    rcases layered_poll A l ls hi hst [.ready 1] with ⟨s', hs', -⟩ | ⟨hb, -⟩
    · exact ⟨CryptOp.poll [.ready 1], s', ⟨0, [], rfl⟩, hs'⟩
    · exact absurd hb not_bad_one
  writes := by
    intro s em rd o s' h hg hh hW hs
    have hi := layered_inv A l ls checks h hg
    obtain ⟨st, hst⟩ := Option.ne_none_iff_exists'.1 hh
    obtain ⟨n, as, rfl⟩ := hW
    change layersStep A (n := ls.length + 1) s (.poll (.ready (n + 1) :: as)) = some s' at hs
    rcases layered_poll A l ls hi hst (.ready (n + 1) :: as) with ⟨s'', hs', h3⟩ | ⟨-, hb⟩
    · rw [hs] at hs'
      cases hs'
      rcases h3 with h3 | h3 | h3
      · exact .inl fun h => h h3
      · exact absurd ⟨n, as, rfl⟩ h3
      · exact .inr h3
    · rw [hs] at hb; cases hb
  bound := fun h hg => (layered_inv A l ls checks h hg).carried.onWire.length_le
  full := by
    intro s em rd h hg hh
    have hh : LState.cur s = none := Classical.not_not.1 hh
    show ((layersW A (ls.length + 1)).base (LState.w s)).wire.length = _
    rw [((layered_inv A l ls checks h hg).free hh).2]
  can_emit := by
    intro s em rd e h hg hh
    have hh : LState.cur s = none := Classical.not_not.1 hh
    simp only [layered, hh]
    exact ⟨_, rfl⟩
  no_emit := by
    intro s s' em rd e h hg hh hs
    obtain ⟨st, hst⟩ := Option.ne_none_iff_exists'.1 hh
    simp only [layered, hst] at hs
    cases hs
  can_carry := by
    intro s hs
    obtain ⟨r, hr⟩ := deliver_some ((layersR A (ls.length + 1)).base (LState.r s)).chunks hs
    refine ⟨CryptOp.deliver 0, ?_⟩
    have : ∃ s', layersStep A (n := ls.length + 1) s (.deliver 0) = some s' := by simp only [layersStep, hr]; exact ⟨_, rfl⟩
    exact this.imp fun s' hs => ⟨⟨0, rfl⟩, hs⟩
  carries := by
    rintro s o s' ⟨n, rfl⟩ hs
    change layersStep A (n := ls.length + 1) s (.deliver n) = some s' at hs
    simp only [layersStep] at hs
    obtain ⟨⟨k, cs⟩, hd, rfl⟩ := Option.map_eq_some_iff.1 hs
    exact deliver_sent hd
  mono_step := by
    intro s o s' hs
    change layersStep A (n := ls.length + 1) s o = some s' at hs
    cases o with
    | poll as =>
      simp only [layersStep] at hs
      split at hs
      · rename_i st hst
        have ha := emit_appends (layers_append A (ls.length + 1)) ((layersW A (ls.length + 1)).setBase (LState.w s) { (layersW A (ls.length + 1)).base (LState.w s) with answers := as }) st
        rw [(layers_append A (ls.length + 1)).base_set] at ha
        split at hs <;> rename_i heq
        · rw [heq] at ha; cases hs; exact ⟨ha.length_le, Nat.le_refl _⟩
        · rw [heq] at ha; cases hs; exact ⟨ha.length_le, Nat.le_refl _⟩
        · cases hs
      · cases hs
    | deliver n =>
      simp only [layersStep] at hs
      obtain ⟨⟨k, cs⟩, hd, rfl⟩ := Option.map_eq_some_iff.1 hs
      exact ⟨Nat.le_refl _, Nat.le_of_lt (deliver_sent hd)⟩
    | wait => simp only [layersStep] at hs; cases hs; exact ⟨Nat.le_refl _, Nat.le_refl _⟩
  mono_emit := by
    intro s e s' hs
    change (match LState.cur s with
      | none => some ({ (show LState (ls.length + 1) from s) with cur := some (.writing (Wire.frame e)) } : LState (ls.length + 1))
      | some _ => none) = some s' at hs
    split at hs
    · cases hs; exact ⟨Nat.le_refl _, Nat.le_refl _⟩
    · cases hs
  mono_read := by
    intro s e s' hs
    obtain ⟨r, -, rfl⟩ := layered_read.1 hs
    exact ⟨Nat.le_refl _, Nat.le_refl _⟩
  can_read := by
    intro s em rd h hg hlt hs
    have hi := layered_inv A l ls checks h hg
    obtain ⟨tl, htl⟩ := hi.carried.pre
    cases tl with
    | nil => rw [List.append_nil] at htl; subst htl; omega
    | cons e tl =>
      have hge := hg e (by rw [← htl]; simp)
      have htk : em.take (rd.length + 1) = rd ++ [e] := by rw [← htl, List.take_append, List.take_of_length_le (by omega)]; simp
      rw [htk] at hs
      obtain ⟨rest, hrest⟩ := hi.carried.next (e := e) (b := wrapL A (l :: ls) rd.length (Wire.frame e)) (rest := wraps A (l :: ls) (rd.length + 1) tl)
        (wraps_snoc A (l :: ls) rd e) (by rw [← htl, wraps_append, Nat.zero_add, wraps]) hs
      have hidle := hi.reader
      rw [← hrest, ← receives_wrap A false] at hidle
      obtain ⟨r', g1, -⟩ := (receives A false (l :: ls)).read_event (checks := checks) (receives_ok A false (l :: ls) (Carry.ok l hge)) (Carry.read hge checks) hidle
      exact ⟨e, _, layered_read.2 ⟨r', g1, rfl⟩⟩

end Bromine.Layers

namespace Bromine.Link

/-- All kinds of connections move. -/
def Kind.moves (checks : Bool) : (k : Kind) → Moves (k.link checks) k.carries (k.writes checks) (k.transports checks)
  | .plain => plainMoves checks
  | .encrypted A key log => cryptMoves A key log checks
  | .layered A l ls => Layers.layeredMoves A l ls checks

end Bromine.Link
