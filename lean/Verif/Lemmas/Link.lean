import Verif.Spec.Link
import Verif.Props.Wire
import Verif.Props.CryptEvents
/-
Invariants of links.
-/
namespace Bromine.Link
open Bromine.Spec Bromine.Props

/-- The bytes of `em` are on their way: the receiver has decoded those of `rd`. -/
structure Carried (enc : List Event → Bytes) (wire : Bytes) (sent : Nat) (chunks : List Chunk) (em rd : List Event) : Prop where
  pre : rd <+: em
  onWire : wire <+: enc em
  le : sent ≤ wire.length
  got : wire.take sent = enc rd ++ flat chunks

theorem flat_append (a b : List Chunk) : flat (a ++ b) = flat a ++ flat b := by simp [flat]

theorem Carried.deliver {enc : List Event → Bytes} {wire : Bytes} {sent n k : Nat} {chunks cs : List Chunk} {em rd : List Event}
    (h : Carried enc wire sent chunks em rd) (hd : Link.deliver wire sent n chunks = some (k, cs)) : Carried enc wire k cs em rd := by
  unfold Link.deliver at hd
  split at hd
  · rename_i hle
    simp only [Option.some.injEq, Prod.mk.injEq] at hd
    obtain ⟨rfl, rfl⟩ := hd
    refine ⟨h.pre, h.onWire, hle, ?_⟩
    rw [flat_append, flat_pushRest]
    have : flat [] = [] := rfl
    rw [this, List.append_nil, ← List.append_assoc, ← h.got]
    rw [show sent + n + 1 = sent + (n + 1) by omega, List.take_add]
  · cases hd

theorem Carried.wait {enc : List Event → Bytes} {wire : Bytes} {sent : Nat} {chunks : List Chunk} {em rd : List Event}
    (h : Carried enc wire sent chunks em rd) : Carried enc wire sent (chunks ++ [.pending]) em rd := by
  refine ⟨h.pre, h.onWire, h.le, ?_⟩
  rw [flat_append, h.got]
  simp [flat, Chunk.bytes]

/-- More is written. -/
theorem Carried.more {enc : List Event → Bytes} {wire w : Bytes} {sent : Nat} {chunks : List Chunk} {em rd x : List Event}
    (h : Carried enc wire sent chunks em rd) (hw : wire ++ w <+: enc (em ++ x)) : Carried enc (wire ++ w) sent chunks (em ++ x) rd := by
  refine ⟨h.pre.trans (List.prefix_append _ _), hw, by have := h.le; simp; omega, ?_⟩
  rw [List.take_append_of_le_length h.le, h.got]

/-- The unread bytes are the beginning of what is still to be read. -/
theorem Carried.unread {enc : List Event → Bytes} {wire : Bytes} {sent : Nat} {chunks : List Chunk} {em rd : List Event}
    (h : Carried enc wire sent chunks em rd) {rest : Bytes} (he : enc em = enc rd ++ rest) : flat chunks <+: rest := by
  have h1 : wire.take sent <+: enc em := (List.take_prefix _ _).trans h.onWire
  rw [h.got, he] at h1
  exact (List.prefix_append_right_inj _).1 h1

/-- An event is read. -/
theorem Carried.read {enc : List Event → Bytes} {wire : Bytes} {sent : Nat} {chunks cs : List Chunk} {em rd : List Event} {e : Event} {b : Bytes}
    (h : Carried enc wire sent chunks em rd) (hp : rd ++ [e] <+: em) (hb : enc (rd ++ [e]) = enc rd ++ b) (hc : flat chunks = b ++ flat cs) :
    Carried enc wire sent cs em (rd ++ [e]) := by
  refine ⟨hp, h.onWire, h.le, ?_⟩
  rw [h.got, hb, hc]; simp

/-! ### Plain connections -/

/-- The frames of events, one after the other. -/
def frames (es : List Event) : Bytes := (es.map Wire.frame).flatten

theorem frames_append (a b : List Event) : frames (a ++ b) = frames a ++ frames b := by simp [frames]

theorem fromBytes_frame_append {e : Event} (h : Fits e ∧ Allocatable e) (checks : Bool) (rest : Bytes) :
    Event.fromBytes checks (Wire.frame e ++ rest) = .ok (e, rest) := by
  obtain ⟨bs, h1, h2⟩ := C01_roundtrip e h.1 h.2
  rw [frame_ok] at h1
  injection h1 with h1
  rw [h1]; exact h2 checks rest

/-- Who holds the connection, and what it has written. -/
structure PlainInv (s : PlainState) (em rd : List Event) : Prop where
  free : s.w.lock = none → s.w.wire = frames em
  held : ∀ t, s.w.lock = some t → ∃ em0 e n, em = em0 ++ [e] ∧ s.w.tasks t = some (.writing e n) ∧ n ≤ (Wire.frame e).length ∧
    s.w.wire = frames em0 ++ (Wire.frame e).take n
  fresh : ∀ t, s.w.log.length ≤ t → s.w.tasks t = none
  carried : Carried frames s.w.wire s.sent s.chunks em rd

theorem script_flat (cs : List Chunk) (closed : Bool) : ({ chunks := cs, closed := closed } : Script).bytes = flat cs := rfl

theorem plain_inv (checks : Bool) {s : (plain checks).State} {em rd : List Event} (h : Hist (plain checks) s em rd) (hg : ∀ e ∈ em, Fits e ∧ Allocatable e) :
    PlainInv s em rd := by
  induction h with
  | init => exact ⟨fun _ => rfl, by simp [plain], by simp [plain], ⟨List.prefix_rfl, List.prefix_rfl, Nat.le_refl _, rfl⟩⟩
  | @step s s' em rd o h hs ih =>
    have ih := ih hg
    change plainStep s o = some s' at hs
    cases o with
    | write n =>
      simp only [plainStep] at hs
      split at hs
      · rename_i t ht
        obtain ⟨w, hw, rfl⟩ := Option.map_eq_some_iff.1 hs
        obtain ⟨em0, e, k, h1, h2, h3, h4⟩ := ih.held t ht
        simp only [Wire.step, h2] at hw
        split at hw
        · rename_i hle
          injection hw with hw; subst hw
          have htk : (Wire.frame e).take k ++ ((Wire.frame e).drop k).take (n + 1) = (Wire.frame e).take (k + n + 1) := by
            rw [show k + n + 1 = k + (n + 1) by omega, List.take_add (i := k)]
          refine ⟨by simp [ht], ?_, ?_, ?_⟩
          · intro t' ht'
            have : t' = t := by simp only at ht'; rw [ht] at ht'; exact (Option.some.inj ht').symm
            subst this
            refine ⟨em0, e, k + n + 1, h1, by simp [Wire.set], hle, ?_⟩
            simp only [h4, List.append_assoc, htk]
          · intro t' ht'
            have := ih.fresh t' ht'
            simp only [Wire.set]
            split
            · rename_i heq; subst heq; rw [h2] at this; cases this
            · exact this
          · have := ih.carried.more (w := ((Wire.frame e).drop k).take (n + 1)) (x := []) (by
              rw [List.append_nil, h4, List.append_assoc, htk, h1, frames_append]
              exact (List.prefix_append_right_inj _).2 (by simpa [frames] using List.take_prefix _ _))
            simpa using this
        · cases hw
      · cases hs
    | flush =>
      simp only [plainStep] at hs
      split at hs
      · rename_i t ht
        obtain ⟨w, hw, rfl⟩ := Option.map_eq_some_iff.1 hs
        obtain ⟨em0, e, k, h1, h2, h3, h4⟩ := ih.held t ht
        simp only [Wire.step, h2] at hw
        split at hw
        · rename_i hle
          injection hw with hw; subst hw
          refine ⟨?_, by simp, ?_, ih.carried⟩
          · intro _
            simp only [h4, h1, frames_append, hle, List.take_length]
            simp [frames]
          · intro t' ht'
            have := ih.fresh t' ht'
            simp only [Wire.set]
            split
            · rename_i heq; subst heq; rw [h2] at this; cases this
            · exact this
        · cases hw
      · cases hs
    | deliver n =>
      simp only [plainStep] at hs
      obtain ⟨⟨k, cs⟩, hd, rfl⟩ := Option.map_eq_some_iff.1 hs
      exact ⟨ih.free, ih.held, ih.fresh, ih.carried.deliver hd⟩
    | wait =>
      simp only [plainStep] at hs
      cases hs
      exact ⟨ih.free, ih.held, ih.fresh, ih.carried.wait⟩
  | @emit s s' em rd e h hs ih =>
    have ih := ih fun e' he' => hg e' (by simp [he'])
    change (((Wire.step s.w (.start s.w.log.length e)).bind fun w => Wire.step w (.lock s.w.log.length)).map fun w => { s with w := w }) = some s' at hs
    obtain ⟨w, hw, rfl⟩ := Option.map_eq_some_iff.1 hs
    simp only [Wire.step, ih.fresh _ (Nat.le_refl _), Option.bind_some, Wire.set, if_true] at hw
    cases hl : s.w.lock with
    | some t => rw [hl] at hw; cases hw
    | none =>
      rw [hl] at hw
      simp only [Option.some.injEq] at hw
      subst hw
      refine ⟨by simp, ?_, ?_, ?_⟩
      · intro t ht
        simp only [Option.some.injEq] at ht
        subst ht
        exact ⟨em, e, 0, rfl, by simp [Wire.set], by simp, by simp [ih.free hl]⟩
      · intro t ht
        simp only [List.length_append, List.length_cons, List.length_nil] at ht
        have h1 : t ≠ s.w.log.length := by omega
        simp [Wire.set, h1, ih.fresh t (by omega)]
      · have := ih.carried.more (w := []) (x := [e]) (by rw [List.append_nil, ih.free hl, frames_append]; exact List.prefix_append _ _)
        simpa using this
  | @read s s' em rd e h hs ih =>
    have ih := ih hg
    change (match Event.fromAsyncRead scriptSource checks { chunks := s.chunks, closed := false } with
      | .ok (e, sc) => some (e, { s with chunks := sc.chunks })
      | _ => none) = some (e, s') at hs
    split at hs
    · rename_i e sc hr
      cases hs
      have hcl : sc.closed = false := by
        have := script_read checks { chunks := s.chunks, closed := false }
        rw [hr] at this
        cases hx : Event.fromAsyncRead (openSource false) checks (({ chunks := s.chunks, closed := false } : Script).bytes) <;> rw [hx] at this <;>
          simp at this
        exact this.2.2
      have h1 := (C04_decoder_iff checks (flat s.chunks) (flat sc.chunks) e).2
        ((C04_decoder_iff_transport checks { chunks := s.chunks, closed := false } e (flat sc.chunks)).1 ⟨sc, hr, rfl, hcl⟩)
      -- the same event is read if more follows
      have h2 : ∀ more, Event.fromBytes checks (flat s.chunks ++ more) = .ok (e, flat sc.chunks ++ more) := by
        intro more
        rw [C04_decoder_iff] at h1 ⊢
        obtain ⟨ha, v, x, f, hf, heq⟩ := h1
        exact ⟨ha, v, x, f, hf, by rw [heq]; simp⟩
      obtain ⟨tl, htl⟩ := ih.carried.pre
      have hu : flat s.chunks <+: frames tl := ih.carried.unread (by rw [← htl, frames_append])
      obtain ⟨more, hmore⟩ := hu
      cases tl with
      | nil =>
        exfalso
        have := h2 more
        rw [hmore, C04_decoder_iff] at this
        obtain ⟨_, v, x, f, hf, heq⟩ := this
        obtain ⟨tlb, hlb, hdr, _, hb, _, rfl⟩ := hf
        have := congrArg List.length heq
        have hbl := hb.1
        simp [frames] at this
        omega
      | cons e0 tl =>
        have he0 := hg e0 (by rw [← htl]; simp)
        have h3 := h2 more
        have hfr : frames (e0 :: tl) = Wire.frame e0 ++ frames tl := rfl
        rw [hmore, hfr, fromBytes_frame_append he0] at h3
        simp only [Outcome.ok.injEq, Prod.mk.injEq] at h3
        obtain ⟨h3e, h3⟩ := h3
        subst h3e
        refine ⟨ih.free, ih.held, ih.fresh, ih.carried.read (b := Wire.frame e0) ⟨tl, by rw [← htl]; simp⟩ (by rw [frames_append]; simp [frames]) ?_⟩
        rw [hfr, h3, ← List.append_assoc] at hmore
        exact List.append_cancel_right hmore
    · cases hs

/-! ### Encrypted connections -/

open CryptWire CryptIO in
theorem poll_wire {A : Aead} {s s' : CryptWire.State} {t : Nat} {as : List IoAns} (h : CryptWire.step A s (.poll t as) = some s') :
    ∃ w, s'.wire = s.wire ++ w := by
  have hf : ∀ e ws wire as, ∃ w, (pollFlushStage A s t e ws wire as).wire = wire ++ w := by
    intro e ws wire as
    simp only [pollFlushStage]
    split <;> exact ⟨_, rfl⟩
  simp only [CryptWire.step] at h
  split at h
  · rename_i e _
    cases h
    simp only [pollWriteStage]
    split
    · exact ⟨_, rfl⟩
    · obtain ⟨w, hw⟩ := hf e (s.ws.pollWrite A (Wire.frame e) as).ws (s.wire ++ (s.ws.pollWrite A (Wire.frame e) as).wire) (s.ws.pollWrite A (Wire.frame e) as).rest
      exact ⟨_, by rw [hw, List.append_assoc]⟩
    · exact ⟨_, rfl⟩
  · cases h; exact hf _ _ _ _
  · cases h

theorem crypt_wire {A : Aead} {key : Bytes} {s : CryptWire.State} (h : CryptWire.Inv A key s) (hb : s.broken = false)
    (hs : ∀ e ∈ s.log.map Prod.snd, Small e) :
    s.wire <+: CryptWire.pkgs A key 0 (s.log.map Prod.snd) ∧ (s.lock = none → s.wire = CryptWire.pkgs A key 0 (s.log.map Prod.snd)) := by
  have hsz : ∀ x ∈ s.log, CryptWire.Sized x.2 := fun x hx => sized_of_small (hs x.2 (List.mem_map.2 ⟨x, hx, rfl⟩))
  cases hl : s.lock with
  | none =>
    obtain ⟨x, -, -, hw⟩ := h.rest hb hsz hl
    rw [hw]
    exact ⟨List.prefix_rfl, fun _ => rfl⟩
  | some t =>
    obtain ⟨lg, e, hlg, hp⟩ := h.phase hb hsz t hl
    obtain ⟨rem, w, g1, g2⟩ : ∃ rem, CryptWire.Cur A key (lg.map Prod.snd) e s.wire rem := by
      rcases hp with ⟨-, x, -, -, hw⟩ | ⟨-, x, rem, -, -, hw⟩ | ⟨-, x, f, -, -, hw⟩
      · exact ⟨_, CryptWire.Cur.start hw⟩
      · exact ⟨_, hw⟩
      · exact ⟨_, hw⟩
    refine ⟨⟨rem, ?_⟩, by simp⟩
    have hlgm : s.log.map Prod.snd = lg.map Prod.snd ++ [e] := by rw [hlg]; simp
    rw [hlgm, CryptWire.pkgs_snoc, Nat.zero_add, ← g2, g1]; simp

structure CryptInv (A : Aead) (key : Bytes) (log : List Encryption) (s : CryptState) (em rd : List Event) : Prop where
  run : ∃ ops, CryptWire.run A (CryptWire.init key log) ops = some s.w
  ok : s.w.broken = false
  log : s.w.log.map Prod.snd = em
  fresh : ∀ t, s.w.log.length ≤ t → s.w.tasks t = none
  rs : s.rs = { dec := { key := key, count := UInt64.ofNat rd.length } }
  carried : Carried (CryptWire.pkgs A key 0) s.w.wire s.sent s.chunks em rd

theorem crypt_run_snoc {A : Aead} {key : Bytes} {log : List Encryption} {w w' : CryptWire.State} {op : CryptWire.Op}
    (h : ∃ ops, CryptWire.run A (CryptWire.init key log) ops = some w) (hs : CryptWire.step A w op = some w') :
    ∃ ops, CryptWire.run A (CryptWire.init key log) ops = some w' := by
  obtain ⟨ops, ho⟩ := h
  refine ⟨ops ++ [op], ?_⟩
  generalize CryptWire.init key log = s0 at ho
  induction ops generalizing s0 with
  | nil => simp only [CryptWire.run, Option.some.injEq] at ho; subst ho; simp [CryptWire.run, hs]
  | cons o ops ih =>
    simp only [CryptWire.run, Option.bind_eq_some_iff, List.cons_append] at ho ⊢
    obtain ⟨s1, h1, h2⟩ := ho
    exact ⟨s1, h1, ih s1 h2⟩

theorem pkgs_append (A : Aead) (key : Bytes) (i : Nat) (a b : List Event) :
    CryptWire.pkgs A key i (a ++ b) = CryptWire.pkgs A key i a ++ CryptWire.pkgs A key (i + a.length) b := by
  induction a generalizing i with
  | nil => simp [CryptWire.pkgs]
  | cons e a ih =>
    simp only [List.cons_append, CryptWire.pkgs, ih, List.length_cons, List.append_assoc]
    rw [show i + 1 + a.length = i + (a.length + 1) by omega]

theorem crypt_inv (A : Aead) (key : Bytes) (log : List Encryption) (checks : Bool) {s : (crypt A key log checks).State} {em rd : List Event}
    (h : Hist (crypt A key log checks) s em rd) (hg : ∀ e ∈ em, Small e) : CryptInv A key log s em rd := by
  induction h with
  | init => exact ⟨⟨[], rfl⟩, rfl, rfl, by simp [crypt, halves], rfl, ⟨List.prefix_rfl, List.prefix_rfl, Nat.le_refl _, rfl⟩⟩
  | @step s s' em rd o h hs ih =>
    have ih := ih hg
    change cryptStep A s o = some s' at hs
    cases o with
    | poll as =>
      simp only [cryptStep] at hs
      split at hs
      · rename_i t ht
        split at hs
        · rename_i w hw
          split at hs
          · cases hs
          · rename_i hbr
            cases hs
            have hrun := crypt_run_snoc ih.run hw
            obtain ⟨e, hh, hlog, hoth, -⟩ := CryptWire.poll_shape hw
            have hb : w.broken = false := by simpa using hbr
            have hinv : CryptWire.Inv A key w := by obtain ⟨ops, ho⟩ := hrun; exact CryptWire.inv_run (CryptWire.inv_init A key log) ho
            obtain ⟨x, hx⟩ := poll_wire hw
            refine ⟨hrun, hb, by rw [hlog]; exact ih.log, ?_, ih.rs, ?_⟩
            · intro t' ht'
              rw [hlog] at ht'
              have h1 := ih.fresh t' ht'
              have : t' ≠ t := by
                rintro rfl
                exact hh.not_other.1 h1
              rw [hoth t' this]; exact h1
            · have hpre := (crypt_wire hinv hb (by rw [hlog, ih.log]; exact hg)).1
              rw [hlog, ih.log] at hpre
              rw [hx] at hpre ⊢
              have := ih.carried.more (w := x) (x := []) (by simpa using hpre)
              simpa using this
        · cases hs
      · cases hs
    | deliver n =>
      simp only [cryptStep] at hs
      obtain ⟨⟨k, cs⟩, hd, rfl⟩ := Option.map_eq_some_iff.1 hs
      exact ⟨ih.run, ih.ok, ih.log, ih.fresh, ih.rs, ih.carried.deliver hd⟩
    | wait =>
      simp only [cryptStep] at hs
      cases hs
      exact ⟨ih.run, ih.ok, ih.log, ih.fresh, ih.rs, ih.carried.wait⟩
  | @emit s s' em rd e h hs ih =>
    have ih := ih fun e' he' => hg e' (by simp [he'])
    change (((CryptWire.step A s.w (.start s.w.log.length e)).bind fun w => CryptWire.step A w (.lock s.w.log.length)).map fun w => { s with w := w }) = some s' at hs
    obtain ⟨w, hw, rfl⟩ := Option.map_eq_some_iff.1 hs
    obtain ⟨w1, hw1, hw⟩ := Option.bind_eq_some_iff.1 hw
    have hrun := crypt_run_snoc (crypt_run_snoc ih.run hw1) hw
    simp only [CryptWire.step, ih.fresh _ (Nat.le_refl _), Option.some.injEq] at hw1
    subst hw1
    simp only [CryptWire.step, Wire.set, if_true] at hw
    have hinv : CryptWire.Inv A key s.w := by obtain ⟨ops, ho⟩ := ih.run; exact CryptWire.inv_run (CryptWire.inv_init A key log) ho
    cases hl : s.w.lock with
    | some t => rw [hl] at hw; cases hw
    | none =>
      rw [hl] at hw
      simp only [Option.some.injEq] at hw
      subst hw
      have hwire := (crypt_wire hinv ih.ok (by rw [ih.log]; exact fun e' he' => hg e' (by simp [he']))).2 hl
      refine ⟨hrun, ih.ok, by simp [ih.log], ?_, ih.rs, ?_⟩
      · intro t ht
        simp only [List.length_append, List.length_cons, List.length_nil] at ht
        have h1 : t ≠ s.w.log.length := by omega
        simp [Wire.set, h1, ih.fresh t (by omega)]
      · have := ih.carried.more (w := []) (x := [e]) (by rw [List.append_nil, hwire, ih.log, pkgs_append]; exact List.prefix_append _ _)
        simpa using this
  | @read s s' em rd e h hs ih =>
    have ih := ih hg
    change (match Event.fromAsyncRead (CryptIO.cryptSource A) checks { rs := s.rs, script := { chunks := s.chunks, closed := false } } with
      | .ok (e, r) => some (e, { s with chunks := r.script.chunks, rs := r.rs })
      | _ => none) = some (e, s') at hs
    have hidle : ({ rs := s.rs, script := { chunks := s.chunks, closed := false } } : CryptIO.Reader) =
        CryptIO.idle { key := key, count := UInt64.ofNat rd.length } s.chunks false := by rw [ih.rs]; rfl
    rw [hidle] at hs
    obtain ⟨tl, htl⟩ := ih.carried.pre
    have hu : flat s.chunks <+: CryptWire.pkgs A key rd.length tl := ih.carried.unread (by rw [← htl, pkgs_append, Nat.zero_add])
    cases tl with
    | nil =>
      have : flat s.chunks = [] := List.prefix_nil.1 (by simpa [CryptWire.pkgs] using hu)
      rw [CryptIO.read_cut (by rw [this]; exact incomplete_nil)] at hs
      simp at hs
    | cons e0 tl =>
      have hse := hg e0 (by rw [← htl]; simp)
      obtain ⟨-, h2, h3⟩ := package_pk (A := A) (key := key) (i := rd.length) hse
      simp only [CryptWire.pkgs] at hu
      by_cases hle : (CryptWire.pk A key rd.length e0).length ≤ (flat s.chunks).length
      · obtain ⟨rest, hrest⟩ : CryptWire.pk A key rd.length e0 <+: flat s.chunks := List.prefix_of_prefix_length_le (List.prefix_append _ _) hu hle
        have hne : Wire.frame e0 ≠ [] := List.length_pos_iff.1 (sized_of_small hse).1
        obtain ⟨cs', h4, h5⟩ := CryptIO.read_sealed (A := A) (d := { key := key, count := UInt64.ofNat rd.length }) (closed := false) (checks := checks) h2 h3
          (fromBytes_frame checks hse) hne hrest.symm
        rw [h5] at hs
        cases hs
        refine ⟨ih.run, ih.ok, ih.log, ih.fresh, ?_, ih.carried.read (b := CryptWire.pk A key rd.length e) ⟨tl, by rw [← htl]; simp⟩ ?_ ?_⟩
        · simp only [CryptIO.idle, CryptWire.ofNat_succ, List.length_append, List.length_cons, List.length_nil, Nat.zero_add]
        · rw [pkgs_append]; simp [CryptWire.pkgs]
        · rw [← hrest, ← h4]; rfl
      · have hpre : flat s.chunks <+: CryptWire.pk A key rd.length e0 := List.prefix_of_prefix_length_le hu (List.prefix_append _ _) (by omega)
        obtain ⟨z, hz⟩ := hpre
        have hz0 : z ≠ [] := by rintro rfl; rw [List.append_nil] at hz; rw [hz] at hle; omega
        rw [CryptIO.read_cut (CryptIO.incomplete_of_cut h2 hz.symm hz0)] at hs
        simp at hs

/-! ### Everything gets read -/

theorem drains_trans {L : Link} {s s' s'' : L.State} (h : Live.Drains L s s') (h' : Live.Drains L s' s'') : Live.Drains L s s'' :=
  Relation.ReflTransGen.trans h h'

theorem drains_step {L : Link} {s s' : L.State} {o : L.Op} (h : L.step s o = some s') : Live.Drains L s s' :=
  Relation.ReflTransGen.single (Or.inl ⟨o, h⟩)

theorem drains_read {L : Link} {s s' : L.State} {e : Event} (h : L.read s = some (e, s')) : Live.Drains L s s' :=
  Relation.ReflTransGen.single (Or.inr ⟨e, h⟩)

/-- The rest of the wire becomes available. -/
theorem deliver_all (wire : Bytes) (sent : Nat) (chunks : List Chunk) (h : sent < wire.length) :
    ∃ cs, deliver wire sent (wire.length - sent - 1) chunks = some (wire.length, cs) := by
  unfold deliver
  rw [if_pos (by omega)]
  exact ⟨_, by rw [show sent + (wire.length - sent - 1) + 1 = wire.length by omega]⟩

theorem step_hist {L : Link} {s s' : L.State} {em rd : List Event} (h : Hist L s em rd) (o : L.Op) (hs : L.step s o = some s') :
    Live.Drains L s s' ∧ Hist L s' em rd := ⟨drains_step hs, .step o h hs⟩

theorem plain_live (checks : Bool) : Live (plain checks) fun e => Fits e ∧ Allocatable e := by
  intro s em rd h hg
  -- the emit that holds the connection finishes
  obtain ⟨s1, d1, h1, l1⟩ : ∃ s1 : PlainState, Live.Drains (plain checks) s s1 ∧ Hist (plain checks) s1 em rd ∧ s1.w.lock = none := by
    have hi := plain_inv checks h hg
    cases hl : PlainState.w s |>.lock with
    | none => exact ⟨s, .refl, h, hl⟩
    | some t =>
      obtain ⟨em0, e, n, -, h2, h3, -⟩ := hi.held t hl
      obtain ⟨s0, d0, h0, hl0, ht0⟩ : ∃ s0 : PlainState, Live.Drains (plain checks) s s0 ∧ Hist (plain checks) s0 em rd ∧ s0.w.lock = some t ∧
          s0.w.tasks t = some (.writing e (Wire.frame e).length) := by
        by_cases hn : n = (Wire.frame e).length
        · exact ⟨s, .refl, h, hl, by rw [h2, hn]⟩
        · obtain ⟨s0, hw, g1, g2⟩ : ∃ s0 : PlainState, plainStep s (.write ((Wire.frame e).length - n - 1)) = some s0 ∧ s0.w.lock = some t ∧
              s0.w.tasks t = some (.writing e (Wire.frame e).length) := by
            simp only [plainStep, hl, Wire.step, h2]
            rw [if_pos (by omega)]
            refine ⟨_, rfl, rfl, ?_⟩
            simp only [Wire.set, if_true]
            congr 2; omega
          have hd := step_hist h (PlainOp.write _) hw
          exact ⟨s0, hd.1, hd.2, g1, g2⟩
      obtain ⟨s1, hf, g1⟩ : ∃ s1 : PlainState, plainStep s0 .flush = some s1 ∧ s1.w.lock = none := by
        simp only [plainStep, hl0, Wire.step, ht0]
        exact ⟨_, rfl, rfl⟩
      have hd := step_hist h0 PlainOp.flush hf
      exact ⟨s1, drains_trans d0 hd.1, hd.2, g1⟩
  -- the transport delivers everything
  obtain ⟨s2, d2, h2, w2⟩ : ∃ s2 : PlainState, Live.Drains (plain checks) s1 s2 ∧ Hist (plain checks) s2 em rd ∧ frames em = frames rd ++ flat s2.chunks := by
    have hi := plain_inv checks h1 hg
    by_cases hs : s1.sent < s1.w.wire.length
    · obtain ⟨cs, hcs⟩ := deliver_all s1.w.wire s1.sent s1.chunks hs
      have hd : plainStep s1 (.deliver (s1.w.wire.length - s1.sent - 1)) = some { s1 with sent := s1.w.wire.length, chunks := cs } := by
        simp only [plainStep, hcs, Option.map_some]
      have hh := step_hist h1 (PlainOp.deliver _) hd
      refine ⟨_, hh.1, hh.2, ?_⟩
      have := (plain_inv checks hh.2 hg).carried.got
      simp only [List.take_length] at this
      rw [← hi.free l1, this]
    · refine ⟨s1, .refl, h1, ?_⟩
      have := hi.carried.got
      rw [List.take_of_length_le (by omega), hi.free l1] at this
      exact this
  -- the receive loop reads everything
  obtain ⟨tl, htl⟩ := (plain_inv checks h2 hg).carried.pre
  suffices ∀ (tl rd : List Event) (s2 : PlainState), Hist (plain checks) s2 em rd → rd ++ tl = em → flat s2.chunks = frames tl →
      ∃ s', Hist (plain checks) s' em em ∧ Live.Drains (plain checks) s2 s' by
    obtain ⟨s', h3, h4⟩ := this tl rd s2 h2 htl (by rw [← htl, frames_append] at w2; exact (List.append_cancel_left w2).symm)
    exact ⟨s', h3, drains_trans d1 (drains_trans d2 h4)⟩
  clear h2 w2 d2 htl tl
  intro tl
  induction tl with
  | nil =>
    intro rd s2 h htl _
    rw [List.append_nil] at htl
    subst htl
    exact ⟨s2, h, .refl⟩
  | cons e tl ih =>
    intro rd s2 h htl hfl
    have hge := hg e (by rw [← htl]; simp)
    obtain ⟨sc, hr, hb, -⟩ := (C04_decoder_iff_transport checks { chunks := s2.chunks, closed := false } e (frames tl)).2
      ((C04_decoder_iff checks (flat s2.chunks) (frames tl) e).1 (by rw [hfl]; exact fromBytes_frame_append hge checks (frames tl)))
    have hread : (plain checks).read s2 = some (e, ({ s2 with chunks := sc.chunks } : PlainState)) := by
      show (match Event.fromAsyncRead scriptSource checks { chunks := s2.chunks, closed := false } with
        | .ok (e, sc) => some (e, ({ s2 with chunks := sc.chunks } : PlainState))
        | _ => none) = _
      rw [hr]
    obtain ⟨s', g1, g2⟩ := ih (rd ++ [e]) _ (.read e h hread) (by rw [← htl]; simp) hb
    exact ⟨s', g1, drains_trans (drains_read hread) g2⟩

theorem crypt_live (A : Aead) (key : Bytes) (log : List Encryption) (checks : Bool) : Live (crypt A key log checks) Small := by
  intro s em rd h hg
  obtain ⟨s1, d1, h1, l1⟩ : ∃ s1 : CryptState, Live.Drains (crypt A key log checks) s s1 ∧ Hist (crypt A key log checks) s1 em rd ∧ s1.w.lock = none := by
    have hi := crypt_inv A key log checks h hg
    cases hl : CryptState.w s |>.lock with
    | none => exact ⟨s, .refl, h, hl⟩
    | some t =>
      obtain ⟨ops, ho⟩ := hi.run
      obtain ⟨w, e, g1, g2, g3, g4⟩ := C40_progress A key ops s.w ho hi.ok
        (fun t e he => hg e (by rw [← hi.log]; exact List.mem_map.2 ⟨(t, e), he, rfl⟩)) t hl
      generalize (2 ^ 33) = big at g1
      have hp : cryptStep A s (.poll [.ready big, .ready big]) = some { s with w := w } := by
        simp only [cryptStep, hl, g1, g4]
        simp
      have hd := step_hist h (CryptOp.poll _) hp
      exact ⟨_, hd.1, hd.2, g3⟩
  have hwire : ∀ s1 : CryptState, Hist (crypt A key log checks) s1 em rd → s1.w.lock = none → s1.w.wire = CryptWire.pkgs A key 0 em := by
    intro s1 h1 l1
    have hi := crypt_inv A key log checks h1 hg
    have hinv : CryptWire.Inv A key s1.w := by obtain ⟨ops, ho⟩ := hi.run; exact CryptWire.inv_run (CryptWire.inv_init A key log) ho
    have := (crypt_wire hinv hi.ok (by rw [hi.log]; exact hg)).2 l1
    rw [hi.log] at this
    exact this
  obtain ⟨s2, d2, h2, w2⟩ : ∃ s2 : CryptState, Live.Drains (crypt A key log checks) s1 s2 ∧ Hist (crypt A key log checks) s2 em rd ∧
      CryptWire.pkgs A key 0 em = CryptWire.pkgs A key 0 rd ++ flat s2.chunks := by
    have hi := crypt_inv A key log checks h1 hg
    by_cases hs : s1.sent < s1.w.wire.length
    · obtain ⟨cs, hcs⟩ := deliver_all s1.w.wire s1.sent s1.chunks hs
      have hd : cryptStep A s1 (.deliver (s1.w.wire.length - s1.sent - 1)) = some { s1 with sent := s1.w.wire.length, chunks := cs } := by
        simp only [cryptStep, hcs, Option.map_some]
      have hh := step_hist h1 (CryptOp.deliver _) hd
      refine ⟨_, hh.1, hh.2, ?_⟩
      have := (crypt_inv A key log checks hh.2 hg).carried.got
      simp only [List.take_length] at this
      rw [← hwire s1 h1 l1, this]
    · refine ⟨s1, .refl, h1, ?_⟩
      have := hi.carried.got
      rw [List.take_of_length_le (by omega), hwire s1 h1 l1] at this
      exact this
  obtain ⟨tl, htl⟩ := (crypt_inv A key log checks h2 hg).carried.pre
  suffices ∀ (tl rd : List Event) (s2 : CryptState), Hist (crypt A key log checks) s2 em rd → rd ++ tl = em → flat s2.chunks = CryptWire.pkgs A key rd.length tl →
      ∃ s', Hist (crypt A key log checks) s' em em ∧ Live.Drains (crypt A key log checks) s2 s' by
    obtain ⟨s', h3, h4⟩ := this tl rd s2 h2 htl (by
      rw [← htl, pkgs_append, Nat.zero_add] at w2; exact (List.append_cancel_left w2).symm)
    exact ⟨s', h3, drains_trans d1 (drains_trans d2 h4)⟩
  clear h2 w2 d2 htl tl
  intro tl
  induction tl with
  | nil =>
    intro rd s2 h htl _
    rw [List.append_nil] at htl
    subst htl
    exact ⟨s2, h, .refl⟩
  | cons e tl ih =>
    intro rd s2 h htl hfl
    have hse := hg e (by rw [← htl]; simp)
    obtain ⟨-, h2, h3⟩ := package_pk (A := A) (key := key) (i := rd.length) hse
    have hne : Wire.frame e ≠ [] := List.length_pos_iff.1 (sized_of_small hse).1
    obtain ⟨cs', h4, h5⟩ := CryptIO.read_sealed (A := A) (d := { key := key, count := UInt64.ofNat rd.length }) (closed := false) (checks := checks) h2 h3
      (fromBytes_frame checks hse) hne (show flat s2.chunks = _ ++ _ from hfl)
    have hidle : ({ rs := s2.rs, script := { chunks := s2.chunks, closed := false } } : CryptIO.Reader) =
        CryptIO.idle { key := key, count := UInt64.ofNat rd.length } s2.chunks false := by rw [(crypt_inv A key log checks h hg).rs]; rfl
    have hread : (crypt A key log checks).read s2 = some (e, ({ s2 with chunks := cs', rs := { dec := { key := key, count := UInt64.ofNat rd.length + 1 } } } : CryptState)) := by
      show (match Event.fromAsyncRead (CryptIO.cryptSource A) checks { rs := s2.rs, script := { chunks := s2.chunks, closed := false } } with
        | .ok (e, r) => some (e, ({ s2 with chunks := r.script.chunks, rs := r.rs } : CryptState))
        | _ => none) = _
      rw [hidle, h5]
      rfl
    obtain ⟨s', g1, g2⟩ := ih (rd ++ [e]) _ (.read e h hread) (by rw [← htl]; simp) (by rw [List.length_append]; exact h4)
    exact ⟨s', g1, drains_trans (drains_read hread) g2⟩

end Bromine.Link
