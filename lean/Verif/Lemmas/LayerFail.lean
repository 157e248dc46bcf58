import Verif.Lemmas.LayerLink
import Verif.Spec.LayerFail
/-
Encrypted layers over a transport that fails: after a failed emit every layer is as after a successful one.
-/
namespace Bromine.Layers
open Bromine CryptIO Spec

/-! ### Writing -/

/-- A write or flush that is over is over in all layers. -/
structure Recovers {τ : Type} {T : WriteT τ Socket} (S : Sends T) : Prop where
  write : ∀ {i f rem t r e t'}, S.writing i f rem t r → rem ≠ [] → T.pollWrite t rem = (.ready (.error e), t') → S.idle (i + 1) t'
  zero : ∀ {i f rem t r t'}, S.writing i f rem t r → rem ≠ [] → T.pollWrite t rem = (.ready (.ok 0), t') → S.idle (i + 1) t'
  flush : ∀ {i f t r e t'}, S.flushing i f t r → T.pollFlush t = (.ready (.error e), t') → S.idle (i + 1) t'

theorem Recovers.writeAll {τ : Type} {T : WriteT τ Socket} {S : Sends T} (h : Recovers S) {i : Nat} {f : Bytes} : ∀ (n : Nat) {rem rem' : Bytes} {t t' : τ} {r : Bytes} {e : IoErr}, rem.length ≤ n → S.writing i f rem t r →
    Layers.writeAll T t rem = (.ready (.error e), rem', t') → S.idle (i + 1) t' := by
  intro n
  induction n with
  | zero =>
    intro rem rem' t t' r e hn _ he
    have : rem = [] := List.eq_nil_of_length_eq_zero (by omega)
    subst this
    unfold Layers.writeAll at he
    simp at he
  | succ n ih =>
    intro rem rem' t t' r e hn hw he
    unfold Layers.writeAll at he
    by_cases hr : rem = []
    · subst hr
      simp at he
    · rw [dif_neg hr] at he
      have hp := S.write hw hr
      have h1 := @h.write i f rem t r
      have h2 := @h.zero i f rem t r
      generalize T.pollWrite t rem = x at hp he h1 h2
      cases hp with
      | error hb hd => simp only [Prod.mk.injEq] at he; obtain ⟨-, -, rfl⟩ := he; exact h1 hw hr rfl
      | pending => simp at he
      | @ready k t1 r1 h3 h4 =>
        rcases h3 with ⟨rfl, -⟩ | ⟨h0, h3, -⟩
        · simp only [Prod.mk.injEq] at he
          obtain ⟨-, -, rfl⟩ := he
          exact h2 hw hr rfl
        · obtain ⟨k, rfl⟩ : ∃ m, k = m + 1 := ⟨k - 1, by omega⟩
          refine ih ?_ h3 he
          have : 0 < rem.length := List.length_pos_iff.2 hr
          simp only [List.length_drop]; omega

theorem socket_recovers : Recovers socketSends := ⟨fun _ _ _ => trivial, fun _ _ _ => trivial, fun _ _ => trivial⟩

section
variable {τ : Type} {T : WriteT τ Socket} {S : Sends T} {A : Aead} {l : Layer}

theorem recover_futWrite (h : Recovers S) {i n : Nat} {f rem : Bytes} {ws ws' : WriteStream} {t t' : τ} {r : Bytes} {lg : List Encryption} {fu : Option Bytes} {e : IoErr} (hlg : Logged l (i + 1) lg)
    (hws : ws = { enc := encAt l (i + 1) lg, inner := false, cipher := false, futWrite := fu }) (hw : S.writing i (pkg A l i f) rem t r)
    (he : pollFutWrite T ws t rem n = (.ready (.error e), ws', t')) : LIdle S l (i + 1) (ws', t') := by
  subst hws
  unfold pollFutWrite at he
  split at he
  · simp at he
  · rename_i e' rem1 t1 hx
    simp only [Prod.mk.injEq] at he
    obtain ⟨-, rfl, rfl⟩ := he
    exact ⟨⟨lg, hlg, rfl⟩, h.writeAll _ (Nat.le_refl _) hw hx⟩
  · simp at he
  · simp at he

theorem futWrite_pos {n : Nat} {rem : Bytes} {ws ws' : WriteStream} {t t' : τ} {k : Nat} (he : pollFutWrite T ws t rem n = (.ready (.ok k), ws', t')) : k = n := by
  unfold pollFutWrite at he
  split at he <;> simp at he
  exact he.1.symm

theorem recover_futFlush (h : Recovers S) {i : Nat} {f : Bytes} {ws ws' : WriteStream} {t t' : τ} {r : Bytes} {lg : List Encryption} {fu : Option FlushFut} {e : IoErr} (hlg : Logged l (i + 1) lg)
    (hws : ws = { enc := encAt l (i + 1) lg, inner := false, cipher := false, futFlush := fu }) (hw : S.flushing i (pkg A l i f) t r)
    (he : pollFutFlush T ws t = (.ready (.error e), ws', t')) : LIdle S l (i + 1) (ws', t') := by
  subst hws
  unfold pollFutFlush at he
  split at he
  · rename_i e' t1 hx
    simp only [Prod.mk.injEq, Poll.ready.injEq] at he
    obtain ⟨rfl, rfl, rfl⟩ := he
    exact ⟨⟨lg, hlg, rfl⟩, h.flush hw hx⟩
  · simp at he
  · simp at he

theorem recover_flushWrite (h : Recovers S) {i : Nat} {f rem : Bytes} {ws ws' : WriteStream} {t t' : τ} {r : Bytes} {lg : List Encryption} {fu : Option FlushFut} {e : IoErr} (hlg : Logged l (i + 1) lg)
    (hws : ws = { enc := encAt l (i + 1) lg, inner := false, cipher := false, futFlush := fu }) (hw : S.writing i (pkg A l i f) rem t r)
    (he : pollFlushWrite T ws t rem = (.ready (.error e), ws', t')) : LIdle S l (i + 1) (ws', t') := by
  subst hws
  unfold pollFlushWrite at he
  have hp := S.writeAll _ (Nat.le_refl _) hw
  split at he
  · rename_i u rem1 t1 hx
    rw [hx] at hp
    cases hp with
    | ready h1 h2 =>
      refine recover_futFlush h hlg rfl (S.written h1.2.1) he
  · rename_i e' rem1 t1 hx
    simp only [Prod.mk.injEq] at he
    obtain ⟨-, rfl, rfl⟩ := he
    exact ⟨⟨lg, hlg, rfl⟩, h.writeAll _ (Nat.le_refl _) hw hx⟩
  · simp at he
  · simp at he

theorem Recovers.layer (h : Recovers S) (A : Aead) (l : Layer) : Recovers (S.layer A l) := by
  refine ⟨?_, ?_, ?_⟩
  · rintro i f rem ⟨ws, t⟩ r e ⟨ws', t'⟩ ⟨hok, hw⟩ hne he
    change pollWrite T A (ws, t) rem = _ at he
    rcases hw with ⟨rfl, ⟨⟨lg, hlg, h1⟩, hi⟩, rfl⟩ | ⟨rfl, lg, rem', hlg, h1, hw⟩ | ⟨rfl, -⟩
    · dsimp only at h1 hi
      subst h1
      have htk : rem.take u32Max = rem := List.take_of_length_le (by have := hok.2.1; unfold u32Max; omega)
      have hdr : rem.drop u32Max = [] := List.drop_of_length_le (by have := hok.2.1; unfold u32Max; omega)
      simp only [pollWrite, List.nil_append, htk, hdr, Bool.and_self, if_true] at he
      split at he
      · obtain ⟨c, lg', hlg', hc, hp⟩ := encrypt_encAt A hlg hok.2.1
        rw [hc] at he
        dsimp only at he
        rw [← hp] at he
        exact recover_futWrite h hlg' rfl (S.start hi (hok.pkg A l)) he
      · simp at he
    · dsimp only at h1 hw
      subst h1
      simp only [pollWrite] at he
      exact recover_futWrite h hlg rfl hw he
    · exact absurd rfl hne
  · rintro i f rem ⟨ws, t⟩ r ⟨ws', t'⟩ - hne he
    exfalso
    change pollWrite T A (ws, t) rem = _ at he
    have hl : 0 < rem.length := List.length_pos_iff.2 hne
    unfold pollWrite at he
    dsimp only at he
    split at he
    · have := futWrite_pos he; omega
    · split at he
      · split at he
        · split at he
          · have := futWrite_pos he; omega
          · simp at he
        · simp at he
      · simp only [Prod.mk.injEq, Poll.ready.injEq, Except.ok.injEq] at he; omega
  · rintro i f ⟨ws, t⟩ r e ⟨ws', t'⟩ ⟨hok, hw⟩ he
    change pollFlush T A (ws, t) = _ at he
    rcases hw with ⟨lg, hlg, h1, hi, rfl⟩ | ⟨lg, hlg, h1, hw⟩ | ⟨lg, rem, hlg, h1, hw⟩ | ⟨lg, hlg, h1, hw⟩
    · dsimp only at h1 hi
      subst h1
      have htk : f.take u32Max = f := List.take_of_length_le (by have := hok.2.1; unfold u32Max; omega)
      have hdr : f.drop u32Max = [] := List.drop_of_length_le (by have := hok.2.1; unfold u32Max; omega)
      simp only [pollFlush, htk, hdr, Bool.and_self, if_true] at he
      rw [if_pos hok.1] at he
      obtain ⟨c, lg', hlg', hc, hp⟩ := encrypt_encAt A hlg hok.2.1
      rw [hc] at he
      dsimp only at he
      rw [← hp] at he
      exact recover_flushWrite h hlg' rfl (S.start hi (hok.pkg A l)) he
    · dsimp only at h1 hw
      subst h1
      simp only [pollFlush, List.take_nil, List.drop_nil, Bool.and_self, if_true, List.length_nil, Nat.lt_irrefl, if_false] at he
      exact recover_futFlush h hlg rfl hw he
    · dsimp only at h1 hw
      subst h1
      simp only [pollFlush] at he
      exact recover_flushWrite h hlg rfl hw he
    · dsimp only at h1 hw
      subst h1
      simp only [pollFlush] at he
      exact recover_futFlush h hlg rfl hw he

theorem recovers (A : Aead) : ∀ ls : List Layer, Recovers (sends A ls) := by
  intro ls
  induction ls with
  | nil => exact socket_recovers
  | cons l ls ih => exact ih.layer A l

/-- An emit that fails. -/
theorem recover_emit (h : Recovers S) {i : Nat} {f : Bytes} {st st' : Stage} {t t' : τ} {r : Bytes} {e : IoErr} (hp : Phase S i f st t r) (he : pollEmit T t st = (.ready (.error e), st', t')) : S.idle (i + 1) t' := by
  have hfl : ∀ {t : τ} {r : Bytes}, S.flushing i f t r → pollFlushing T t = (.ready (.error e), st', t') → S.idle (i + 1) t' := by
    intro t r hf he
    unfold pollFlushing at he
    split at he
    rename_i p t1 hx
    simp only [Prod.mk.injEq] at he
    obtain ⟨rfl, -, rfl⟩ := he
    exact h.flush hf hx
  cases st with
  | flushing => exact hfl hp he
  | writing rem =>
    simp only [pollEmit] at he
    have hq := S.writeAll _ (Nat.le_refl _) hp
    split at he
    · rename_i u rem1 t1 hx
      rw [hx] at hq
      cases hq with
      | ready h1 h2 => exact hfl (S.written h1.2.1) he
    · rename_i e' rem1 t1 hx
      simp only [Prod.mk.injEq] at he
      obtain ⟨-, -, rfl⟩ := he
      exact h.writeAll _ (Nat.le_refl _) hp hx
    · simp at he
    · simp at he

end
/-! ### Histories -/

section
variable {A : Aead} {l : Layer} {ls : List Layer}

/-- The bytes due for emit number `i`. -/
abbrev due (A : Aead) (l : Layer) (ls : List Layer) (i : Nat) (e : Event) : Bytes := wrapL A (l :: ls) i (Wire.frame e)

structure FInv (A : Aead) (l : Layer) (ls : List Layer) (s : FState (l :: ls).length) : Prop where
  free : s.cur = none → (sends A (l :: ls)).idle s.over.length s.w ∧ s.wire A = (s.over.map EmitOver.bytes).flatten
  held : ∀ e st, s.cur = some (e, st) → Carry ls e ∧ ∃ part r, Phase (sends A (l :: ls)) s.over.length (Wire.frame e) st s.w r ∧ s.wire A = (s.over.map EmitOver.bytes).flatten ++ part ∧
    s.mark = (s.over.map EmitOver.bytes).flatten.length ∧ part ++ r = due A l ls s.over.length e
  past : ∀ i x, s.over[i]? = some x → Carry ls x.event ∧ x.bytes <+: due A l ls i x.event ∧ (x.result = .ok → x.bytes = due A l ls i x.event) ∧ x.result ≠ .panicked

theorem finv_start : FInv A l ls (failStart (l :: ls)) := by
  refine ⟨fun _ => ⟨sends_start A (l :: ls), ?_⟩, (fun e st h => by cases h), (fun i x h => by simp [failStart] at h)⟩
  change ((layersW A (l :: ls).length).base (startW (l :: ls))).wire = _
  rw [base_startW]
  rfl

/-- A poll: what it does to the wire, and what it leads to. -/
theorem finv_poll {s : FState (l :: ls).length} (h : FInv A l ls s) {e : Event} {st : Stage} (hc : s.cur = some (e, st)) (as : List IoAns) :
    ∃ s', failStep A s (.poll as) = some s' ∧ FInv A l ls s' ∧ s.wire A <+: s'.wire A ∧
      ((s'.over = s.over ∧ (∃ st', s'.cur = some (e, st')) ∧ (HeadReady as → (s.wire A).length < (s'.wire A).length)) ∨
       (s'.cur = none ∧ ∃ x, s'.over = s.over ++ [x] ∧ x.event = e ∧ (x.result = .ok ∨ ∃ err, x.result = .error err ∧ Fails as err))) := by
  obtain ⟨hcar, part, r, hph, hw, hm, hr⟩ := h.held e st hc
  have hw0 : s.wire A = ((layersW A (l :: ls).length).base s.w).wire := rfl
  have hb := (sends A (l :: ls)).base_set s.w { (layersW A (l :: ls).length).base s.w with answers := as }
  have hpo := polled_emit (sends A (l :: ls)) (hph.set { (layersW A (l :: ls).length).base s.w with answers := as })
  have hre := fun {e st' t'} => recover_emit (e := e) (st' := st') (t' := t') (recovers A (l :: ls)) (hph.set { (layersW A (l :: ls).length).base s.w with answers := as })
  rw [hb] at hpo
  simp only [failStep, hc]
  generalize hx : pollEmit (layersW A (l :: ls).length) ((layersW A (l :: ls).length).setBase s.w { (layersW A (l :: ls).length).base s.w with answers := as }) st = x at hpo
  have over : ∀ {w' : WState (l :: ls).length} {r' : Bytes} (res : EmitEnd), Adv { (layersW A (l :: ls).length).base s.w with answers := as } ((layersW A (l :: ls).length).base w') r r' →
      (sends A (l :: ls)).idle (s.over.length + 1) w' → (res = .ok → r' = []) → res ≠ .panicked →
      FInv A l ls (s.done A e res w') ∧ s.wire A <+: (s.done A e res w').wire A := by
    intro w' r' res ha hid hok hnp
    obtain ⟨⟨d, h1, h2⟩, -⟩ := ha
    dsimp only at h2
    have hwire : (s.done A e res w').wire A = (s.over.map EmitOver.bytes).flatten ++ (part ++ d) := by
      change ((layersW A (l :: ls).length).base w').wire = _
      rw [h2, ← hw0, hw, List.append_assoc]
    have hbytes : ((layersW A (l :: ls).length).base w').wire.drop s.mark = part ++ d := by
      change ((s.done A e res w').wire A).drop s.mark = _
      rw [hwire, hm, List.drop_left]
    refine ⟨⟨fun _ => ⟨by simpa [FState.done] using hid, ?_⟩, fun _ _ h => by simp [FState.done] at h, ?_⟩, ?_⟩
    · rw [hwire]
      simp only [FState.done, hbytes, List.map_append, List.map_cons, List.map_nil, List.flatten_append, List.flatten_cons, List.flatten_nil, List.append_nil]
    · intro i x hx
      simp only [FState.done, hbytes] at hx
      rw [List.getElem?_append] at hx
      split at hx
      · exact h.past i x hx
      · rename_i hi
        have hi' : i = s.over.length := by
          have := (List.getElem?_eq_some_iff.1 hx).1
          simp only [List.length_singleton] at this
          omega
        subst hi'
        simp only [Nat.sub_self, List.getElem?_cons_zero, Option.some.injEq] at hx
        subst hx
        dsimp only
        refine ⟨hcar, ⟨r', ?_⟩, fun h => ?_, hnp⟩
        · rw [← hr, h1, List.append_assoc]
        · rw [← hr, h1, hok h, List.append_nil]
    · rw [hwire, hw, ← List.append_assoc]
      exact List.prefix_append _ _
  cases hpo with
  | @ready a x r' h1 h2 =>
    obtain ⟨st', w'⟩ := x
    obtain ⟨g1, g2⟩ := over .ok h2 h1.1 (fun _ => h1.2) (by simp)
    exact ⟨_, rfl, g1, g2, .inr ⟨rfl, _, rfl, rfl, .inl rfl⟩⟩
  | @error err x r' h1 h2 =>
    obtain ⟨st', w'⟩ := x
    obtain ⟨g1, g2⟩ := over (.error err) h2 (hre hx) (by simp) (by simp)
    exact ⟨_, rfl, g1, g2, .inr ⟨rfl, _, rfl, rfl, .inr ⟨err, rfl, h1⟩⟩⟩
  | @pending x r' h1 h2 h3 =>
    obtain ⟨st', w'⟩ := x
    obtain ⟨⟨d, k1, k2⟩, -⟩ := h2
    dsimp only at k2 h1
    have hwire : ((layersW A (l :: ls).length).base w').wire = (s.over.map EmitOver.bytes).flatten ++ (part ++ d) := by
      rw [k2, ← hw0, hw, List.append_assoc]
    refine ⟨_, rfl, ⟨fun h => by simp at h, ?_, h.past⟩, ?_, .inl ⟨rfl, ⟨st', rfl⟩, ?_⟩⟩
    · intro e' st'' h'
      simp only [Option.some.injEq, Prod.mk.injEq] at h'
      obtain ⟨rfl, rfl⟩ := h'
      refine ⟨hcar, part ++ d, r', h1, hwire, hm, ?_⟩
      rw [← hr, k1, List.append_assoc]
    · exact ⟨d, by rw [hw0]; exact k2.symm⟩
    · intro hh
      have hd : d ≠ [] := by
        rintro rfl
        rcases h3 with h3 | h3
        · exact h3 (by simpa using k1.symm)
        · exact h3 hh
      have : 0 < d.length := List.length_pos_iff.2 hd
      change ((layersW A (l :: ls).length).base s.w).wire.length < ((layersW A (l :: ls).length).base w').wire.length
      rw [k2, List.length_append]
      omega

theorem finv_emit {s s' : FState (l :: ls).length} (h : FInv A l ls s) {e : Event} (he : Carry ls e) (hs : failStep A s (.emit e) = some s') : FInv A l ls s' := by
  simp only [failStep] at hs
  split at hs
  · rename_i hc
    obtain ⟨h1, h2⟩ := h.free hc
    cases hs
    refine ⟨fun h => by simp at h, ?_, h.past⟩
    intro e' st h'
    simp only [Option.some.injEq, Prod.mk.injEq] at h'
    obtain ⟨rfl, rfl⟩ := h'
    refine ⟨he, [], due A l ls s.over.length e, ?_, by rw [List.append_nil]; exact h2, congrArg List.length h2, rfl⟩
    have := (sends A (l :: ls)).start h1 (sends_ok A (l :: ls) (he.ok l))
    rw [sends_wrap] at this
    exact this
  · cases hs

theorem finv_steps : ∀ {ops : List FailOp} {s s' : FState (l :: ls).length}, FInv A l ls s → (∀ e, .emit e ∈ ops → Carry ls e) → failSteps A s ops = some s' → FInv A l ls s' := by
  intro ops
  induction ops with
  | nil => intro s s' h _ hs; cases hs; exact h
  | cons o ops ih =>
    intro s s' h hc hs
    simp only [failSteps] at hs
    cases hs1 : failStep A s o with
    | none => rw [hs1] at hs; cases hs
    | some s1 =>
      rw [hs1] at hs
      refine ih ?_ (fun e he => hc e (by simp [he])) hs
      cases o with
      | emit e => exact finv_emit h (hc e (by simp)) hs1
      | poll as =>
        cases hcur : s.cur with
        | none => simp only [failStep, hcur] at hs1; cases hs1
        | some x =>
          obtain ⟨e, st⟩ := x
          obtain ⟨s2, g1, g2, -⟩ := finv_poll h hcur as
          rw [g1] at hs1
          cases hs1
          exact g2

end
end Bromine.Layers
