import Verif.Lemmas.CryptDrop
import Verif.Props.CryptPoll
/-
C45: emits on an encrypted connection that are dropped at any point, what the peer reads.
-/
namespace Bromine.Props
open Bromine Bromine.Spec Bromine.CryptIO Bromine.CryptWire Bromine.CryptBytes

/-- A read half with this plaintext left and no package begun. -/
def midway (d : Decryptor) (t : Bytes) (cs : List Chunk) (closed : Bool) : Reader :=
  { rs := { dec := d, remaining := t, fut := none }, script := { chunks := cs, closed := closed } }

/-- An event at the start of the plaintext that is left is read. -/
theorem read_midway {A : Aead} {d : Decryptor} {closed checks : Bool} {cs : List Chunk} {e : Event} {t t' : Bytes}
    (hf : Event.fromBytes checks t = .ok (e, t')) :
    Event.fromAsyncRead (cryptSource A) checks (midway d t cs closed) = .ok (e, midway d t' cs closed) := by
  have hdr : ∀ int n (s : Reader) (t x t' : Bytes), s = midway d t cs closed → readExact n t = .ok (x, t') →
      ∃ s', drive A int (s.script.chunks.length + 2) n [] s = .ok (x, s') ∧ s' = midway d t' cs closed := by
    intro int n s t x t' hs h
    subst hs
    unfold readExact at h
    split at h
    · rename_i hn
      simp only [Outcome.ok.injEq, Prod.mk.injEq] at h
      obtain ⟨rfl, rfl⟩ := h
      exact ⟨_, drive_buffered hn cs, rfl⟩
    · cases h
  obtain ⟨r', h1, rfl⟩ := fromAsyncRead_rel (S := cryptSource A) (T := byteSource) (fun r t => r = midway d t cs closed)
    (fun n s t x t' _ hr h => hdr true n s t x t' hr h) (fun n s t x t' hr h => hdr false n s t x t' hr h) rfl hf
  exact h1

/-- An event at the start of the plaintext of the next package is read. -/
theorem read_next {A : Aead} {d : Decryptor} {closed checks : Bool} {cs : List Chunk} {e : Event} {p pkg rest t : Bytes}
    (hp : complete pkg = true) (hd : A.dec d.key (nonceFromNumber d.count) (pkg.drop 4) = some p)
    (hf : Event.fromBytes checks p = .ok (e, t)) (hne : t ≠ p) (hcs : flat cs = pkg ++ rest) :
    ∃ cs', flat cs' = rest ∧
      Event.fromAsyncRead (cryptSource A) checks (idle d cs closed) = .ok (e, midway { key := d.key, count := d.count + 1 } t cs' closed) := by
  obtain ⟨r', h1, h2⟩ := fromAsyncRead_rel (S := cryptSource A) (T := byteSource) (Follows d closed p pkg rest)
    (fun n s t x t' _ hr h => follows_drive hp hd true hr h) (fun n s t x t' hr h => follows_drive hp hd false hr h)
    (Or.inl ⟨rfl, cs, hcs, rfl⟩) hf
  rcases h2 with ⟨h2, -⟩ | ⟨cs', h2, rfl⟩
  · exact absurd h2 hne
  · exact ⟨cs', h2, h1⟩

theorem fromBytes_frame_append (checks : Bool) {e : Event} (h : Small e) (t : Bytes) : Event.fromBytes checks (Wire.frame e ++ t) = .ok (e, t) := by
  obtain ⟨bs, h1, h2⟩ := C01_roundtrip e h.1 (show Allocatable e by have := h.2; unfold frameSize at this; unfold Allocatable; omega)
  rw [intoBytes_frame] at h1
  injection h1 with h1
  subst h1
  exact h2 checks t

theorem framesOf_cons (e : Event) (es : List Event) : framesOf (e :: es) = Wire.frame e ++ framesOf es := by simp [framesOf]

/-- Reading packages that each hold some whole frames, then part of a package. -/
theorem readLoop_groups {A : Aead} {key : Bytes} {checks closed : Bool} : ∀ (fuel i : Nat) (groups : List (List Event)) (left : List Event) (cs : List Chunk)
    (bs cut : Bytes), (∀ e ∈ left ++ groups.flatten, Small e) → (∀ g ∈ groups, g ≠ []) → Packages A key i (groups.map framesOf) bs → Incomplete cut →
    flat cs = bs ++ cut → (left ++ groups.flatten).length < fuel →
    readLoop (cryptSource A) checks fuel (midway { key := key, count := UInt64.ofNat i } (framesOf left) cs closed)
      = (left ++ groups.flatten, if closed then .err (.io .unexpectedEof) else .hang) := by
  intro fuel
  induction fuel with
  | zero => intro i groups left cs bs cut _ _ _ _ _ h; omega
  | succ n ih =>
    intro i groups left cs bs cut hsm hne hp hc hcs hf
    cases left with
    | cons e left =>
      rw [framesOf_cons, readLoop_step n (read_midway (fromBytes_frame_append checks (hsm e (by simp)) _)),
        ih i groups left cs bs cut (fun e' he' => hsm e' (by simp only [List.cons_append, List.mem_cons]; exact Or.inr he')) hne hp hc hcs
          (by simpa using hf)]
      rfl
    | nil =>
      cases groups with
      | nil =>
        have hp : bs = [] := hp
        subst hp
        rw [List.nil_append] at hcs
        unfold readLoop
        have : midway { key := key, count := UInt64.ofNat i } (framesOf []) cs closed = idle { key := key, count := UInt64.ofNat i } cs closed := rfl
        rw [this, read_cut (by rw [hcs]; exact hc)]
        cases closed <;> rfl
      | cons g groups =>
        cases g with
        | nil => exact absurd rfl (hne [] (by simp))
        | cons e g =>
          obtain ⟨pkg, rest, h1, rfl, h2⟩ := hp
          obtain ⟨h3, h4⟩ := package_complete h1
          have hse : Small e := hsm e (by simp)
          have hpos : 0 < (Wire.frame e).length := (sized_of_small hse).1
          rw [framesOf_cons] at h4
          obtain ⟨cs', k1, k2⟩ := read_next (A := A) (d := { key := key, count := UInt64.ofNat i }) (closed := closed) (checks := checks) (cs := cs)
            (rest := rest ++ cut) h3 h4 (fromBytes_frame_append checks hse _)
            (fun h => by have := congrArg List.length h; rw [List.length_append] at this; omega) (by rw [hcs, List.append_assoc])
          have hidle : midway { key := key, count := UInt64.ofNat i } (framesOf []) cs closed = idle { key := key, count := UInt64.ofNat i } cs closed := rfl
          rw [hidle, readLoop_step n k2]
          simp only [ofNat_succ]
          rw [ih (i + 1) groups g cs' rest cut (fun e' he' => hsm e' (by simp only [List.flatten_cons, List.nil_append, List.cons_append, List.mem_cons]; exact Or.inr he'))
            (fun g' hg' => hne g' (by simp [hg'])) h2 hc k1 (by simpa using hf)]
          rfl

/-- A prefix of a sequence of packages is some of them, then part of one. -/
theorem packages_cut {A : Aead} {key : Bytes} : ∀ {ms : List Bytes} {i : Nat} {w rem : Bytes}, Packages A key i ms (w ++ rem) →
    ∃ k bs cut, Packages A key i (ms.take k) bs ∧ w = bs ++ cut ∧ Incomplete cut ∧ (rem = [] → k = ms.length ∧ cut = []) := by
  intro ms
  induction ms with
  | nil =>
    intro i w rem h
    have h : w ++ rem = [] := h
    rw [List.append_eq_nil_iff] at h
    exact ⟨0, [], [], rfl, by simp [h.1], incomplete_nil, fun _ => ⟨rfl, rfl⟩⟩
  | cons m ms ih =>
    intro i w rem h
    obtain ⟨pkg, rest, h1, h2, h3⟩ := h
    have hcp := (package_complete h1).1
    rcases List.append_eq_append_iff.1 h2 with ⟨z, g1, g2⟩ | ⟨z, g1, g2⟩
    · by_cases hz : z = []
      · subst hz
        rw [List.append_nil] at g1
        rw [List.nil_append] at g2
        subst g1; subst g2
        obtain ⟨k, bs, cut, k1, k2, k3, k4⟩ := ih (w := []) (rem := rem) (by simpa using h3)
        have hbs : bs = [] ∧ cut = [] := by simpa using k2.symm
        exact ⟨k + 1, pkg, [], ⟨pkg, [], h1, by simp, by rw [← hbs.1]; exact k1⟩, by simp, incomplete_nil, fun hr => ⟨by simp [(k4 hr).1], rfl⟩⟩
      · refine ⟨0, [], w, rfl, by simp, incomplete_of_cut hcp g1 hz, fun hr => ?_⟩
        subst hr
        have := congrArg List.length g2
        have hz' := List.length_pos_iff.2 hz
        simp only [List.length_append, List.length_nil] at this
        omega
    · obtain ⟨k, bs, cut, k1, k2, k3, k4⟩ := ih (w := z) (rem := rem) (by rw [← g2]; exact h3)
      exact ⟨k + 1, pkg ++ bs, cut, ⟨pkg, bs, h1, rfl, k1⟩, by rw [g1, k2, List.append_assoc], k3, fun hr => ⟨by simp [(k4 hr).1], (k4 hr).2⟩⟩

/-- Events whose frame, together with what a dropped emit can have left in the buffer, fits a package. -/
def FitsBuffered (e : Event) : Prop := Fits e ∧ frameSize e + 1024 + 16 < 2 ^ 32

theorem FitsBuffered.small {e : Event} (h : FitsBuffered e) : Small e := ⟨h.1, by have := h.2; omega⟩

/-- No step is an i/o error of the transport (and it does not accept nothing for ever). -/
def WritesFine (ops : List CryptWire.Op) : Prop :=
  ∀ op ∈ ops, ∀ t as, op = .poll t as → (∀ er, IoAns.fail er ∉ as) ∧ IoAns.ready 0 ∉ as

theorem fineOps {ops : List CryptWire.Op} (h : WritesFine ops) : ∀ op ∈ ops, FineOp op := by
  intro op ho
  cases op with
  | poll t as =>
    obtain ⟨h1, h2⟩ := h _ ho t as rfl
    rintro (⟨er, hb⟩ | hb)
    · exact h1 er hb
    · exact h2 hb
  | _ => trivial

/-- C45, the wire. Any number of tasks emit events on one encrypted connection, and any of the emits are dropped, at any point (or panic, because
of an earlier drop). The wire is never torn: what is on it (together with the rest of the current package, which the write half keeps) is a sequence of whole packages, each holding
the whole frames of one or more of the events, in the order in which their emits got the connection, no event twice; the buffer holds whole frames too. -/
theorem C45_wire_intact (A : Aead) (key : Bytes) {log : List Encryption} (ops : List CryptWire.Op) (s : CryptWire.State)
    (hr : CryptWire.run A (CryptWire.init key log) ops = some s) (ht : WritesFine ops) (hs : ∀ t e, (t, e) ∈ s.log → FitsBuffered e) :
    ∃ (packages : List (List Event)) (pend : List Event) (rest : Bytes),
      Packages A key 0 (packages.map fun es => (es.map Wire.frame).flatten) (s.wire ++ rest) ∧
      s.ws.buffer = (pend.map Wire.frame).flatten ∧ s.ws.buffer.length < 1024 ∧ (∀ g ∈ packages, g ≠ []) ∧
      (packages.flatten ++ pend).Sublist (s.log.map Prod.snd) := by
  obtain ⟨es, ⟨groups, pend, rem, hd, rfl⟩, h2, -⟩ := (dinv_run (dinv_init A key log) (fineOps ht) hr
    (fun t e h => by have := (hs t e h).2; rw [length_frame]; exact this)).taken
  exact ⟨groups, pend, rem, hd.pkgs, hd.buf, hd.short, hd.ne, h2⟩

/-- C45, the peer. Whatever emits are dropped, at whatever point: the peer reads only events that were emitted, in the order in which their emits got
the connection, each at most once, and then waits or sees the end of the stream; it never sees a broken frame or package. (Events can be missing: `C45_violated_lost`.) -/
theorem C45_peer_reads (A : Aead) (key : Bytes) {log : List Encryption} (ops : List CryptWire.Op) (s : CryptWire.State)
    (hr : CryptWire.run A (CryptWire.init key log) ops = some s) (ht : WritesFine ops) (hs : ∀ t e, (t, e) ∈ s.log → FitsBuffered e)
    (checks : Bool) (sc : Script) (hsc : sc.bytes = s.wire) (fuel : Nat) (hf : s.log.length < fuel) :
    ∃ es, readLoop (cryptSource A) checks fuel { rs := { dec := { key := key } }, script := sc }
        = (es, if sc.closed then .err (.io .unexpectedEof) else .hang) ∧
      es.Sublist (s.log.map Prod.snd) := by
  obtain ⟨groups, pend, rem, h1, -, -, h3, h4⟩ := C45_wire_intact A key ops s hr ht hs
  obtain ⟨k, bs, cut, k1, k2, k3, -⟩ := packages_cut h1
  obtain ⟨cs, closed⟩ := sc
  have hsc : flat cs = s.wire := hsc
  have hsub : ((groups.take k).flatten).Sublist (s.log.map Prod.snd) := by
    refine (List.Sublist.trans ?_ (List.sublist_append_left groups.flatten pend)).trans h4
    conv => rhs; rw [← List.take_append_drop k groups, List.flatten_append]
    exact List.sublist_append_left _ _
  refine ⟨(groups.take k).flatten, ?_, hsub⟩
  have := readLoop_groups (A := A) (key := key) (checks := checks) (closed := closed) fuel 0 (groups.take k) [] cs bs cut
    (fun e he => by
      obtain ⟨x, hx, rfl⟩ := List.mem_map.1 (hsub.subset he)
      exact (hs x.1 x.2 hx).small)
    (fun g hg => h3 g (List.mem_of_mem_take hg)) (by rw [← List.map_take] at k1; exact k1) k3 (by rw [hsc, k2])
    (by have := hsub.length_le; simp only [List.length_map] at this; simp only [List.nil_append]; omega)
  exact this

/-- Such a run: the first emit is dropped while it holds the connection, the event of the second stays in the buffer and goes out in one package with that of the third. -/
theorem C45_peer_reads_applies : ∃ s, CryptWire.run toyAead (CryptWire.init [1])
        [.start 1 sampleEvent, .start 2 emptyEvent, .start 3 sampleEvent, .lock 1, .poll 1 [.pending], .drop 1, .lock 2, .poll 2 [.ready 100, .ready 1],
         .lock 3, .poll 3 [.ready 200, .ready 1]] = some s ∧
      s.log = [(1, sampleEvent), (2, emptyEvent), (3, sampleEvent)] ∧ s.tasks 1 = some (.gone sampleEvent) ∧ s.tasks 2 = some (.done emptyEvent) ∧
      s.tasks 3 = some (.done sampleEvent) ∧
      WritesFine [.start 1 sampleEvent, .start 2 emptyEvent, .start 3 sampleEvent, .lock 1, .poll 1 [.pending], .drop 1, .lock 2, .poll 2 [.ready 100, .ready 1],
         .lock 3, .poll 3 [.ready 200, .ready 1]] ∧
      FitsBuffered sampleEvent ∧ FitsBuffered emptyEvent := by
  obtain ⟨s, h1, h2⟩ : ∃ s, CryptWire.run toyAead (CryptWire.init [1])
        [.start 1 sampleEvent, .start 2 emptyEvent, .start 3 sampleEvent, .lock 1, .poll 1 [.pending], .drop 1, .lock 2, .poll 2 [.ready 100, .ready 1],
         .lock 3, .poll 3 [.ready 200, .ready 1]] = some s ∧ (s.log, s.tasks 1, s.tasks 2, s.tasks 3) =
          ([(1, sampleEvent), (2, emptyEvent), (3, sampleEvent)], some (.gone sampleEvent), some (.done emptyEvent), some (.done sampleEvent)) := by
    have : (CryptWire.run toyAead (CryptWire.init [1])
        [.start 1 sampleEvent, .start 2 emptyEvent, .start 3 sampleEvent, .lock 1, .poll 1 [.pending], .drop 1, .lock 2, .poll 2 [.ready 100, .ready 1],
         .lock 3, .poll 3 [.ready 200, .ready 1]]).map (fun s => (s.log, s.tasks 1, s.tasks 2, s.tasks 3)) =
          some ([(1, sampleEvent), (2, emptyEvent), (3, sampleEvent)], some (.gone sampleEvent), some (.done emptyEvent), some (.done sampleEvent)) := by
      decide +kernel
    rw [Option.map_eq_some_iff] at this
    exact this
  simp only [Prod.mk.injEq] at h2
  refine ⟨s, h1, h2.1, h2.2.1, h2.2.2.1, h2.2.2.2, ?_, ?_, ?_⟩
  · intro op ho t as h
    subst h
    simp at ho
    rcases ho with ⟨rfl, rfl⟩ | ⟨rfl, rfl⟩ | ⟨rfl, rfl⟩ <;> simp
  · exact ⟨small_sample.1, by decide⟩
  · exact ⟨small_empty.1, by decide⟩

end Bromine.Props
