import Verif.Lemmas.LayerLink
import Verif.Lemmas.LayersOne
import Verif.Spec.Layers
import Verif.Props.Stack
/-
C77: encrypted connections over encrypted connections, to any depth.
-/
namespace Bromine.Props
open Bromine Bromine.Spec Bromine.CryptIO Bromine.Layers

/-! ### The specification is met, and determines the bytes -/

theorem bigEndian_unique {n x : Nat} {a b : Bytes} (h : BigEndian n x a) (h' : BigEndian n x b) : a = b := by
  rw [bigEndian_iff] at h h'
  exact beVal_inj (by rw [h.1, h'.1]) (by rw [← h.2, ← h'.2])

theorem frameLayout_unique {e : Event} {ver extra a b : Bytes} (h : FrameLayout e ver extra a) (h' : FrameLayout e ver extra b) : a = b := by
  have hhdr : ∀ {a b : Bytes}, HeaderLayout e.header ver extra a → HeaderLayout e.header ver extra b → a = b := by
    rintro a b ⟨idb, refb, nsb, nameb, -, -, h1, h2, h3, h4, rfl⟩ ⟨idb', refb', nsb', nameb', -, -, g1, g2, g3, g4, rfl⟩
    have hstr : ∀ {s : String} {a b : Bytes}, StringLayout s a → StringLayout s b → a = b := by
      rintro s a b ⟨x, hx, rfl⟩ ⟨y, hy, rfl⟩
      rw [bigEndian_unique hx hy]
    have e1 := bigEndian_unique h1 g1
    have e2 : refb = refb' := by
      revert h2 g2
      cases e.header.refId with
      | none => intro h2 g2; rw [show refb = [0x00] from h2, show refb' = [0x00] from g2]
      | some r =>
        rintro ⟨x, hx, rfl⟩ ⟨y, hy, rfl⟩
        rw [bigEndian_unique hx hy]
    have e3 : nsb = nsb' := by
      revert h3 g3
      cases e.header.ns with
      | none => intro h3 g3; rw [show nsb = [0, 0] from h3, show nsb' = [0, 0] from g3]
      | some r => exact fun h3 g3 => hstr h3.2 g3.2
    rw [e1, e2, e3, hstr h4 g4]
  obtain ⟨tlb, hlb, hdr, h1, h2, h3, rfl⟩ := h
  obtain ⟨tlb', hlb', hdr', g1, g2, g3, rfl⟩ := h'
  have e := hhdr h1 g1
  subst e
  rw [bigEndian_unique h2 g2, bigEndian_unique h3 g3]

theorem package_unique {A : Aead} {key : Bytes} {i : Nat} {m a b : Bytes} (h : Package A key i m a) (h' : Package A key i m b) : a = b := by
  obtain ⟨nonce, c, lb, ⟨nb, h1, h2⟩, h3, h4, rfl⟩ := h
  obtain ⟨nonce', c', lb', ⟨nb', g1, g2⟩, g3, g4, rfl⟩ := h'
  have e1 : nonce = nonce' := by rw [h2, g2, bigEndian_unique h1 g1]
  subst e1
  rw [h3] at g3
  cases g3
  rw [bigEndian_unique h4 g4]

theorem nested_unique {A : Aead} {i : Nat} : ∀ {ls : List Layer} {m a b : Bytes}, Nested A ls i m a → Nested A ls i m b → a = b := by
  intro ls
  induction ls with
  | nil => intro m a b h h'; rw [show a = m from h, show b = m from h']
  | cons l ls ih =>
    rintro m a b ⟨p, h1, h2⟩ ⟨p', g1, g2⟩
    have e := package_unique h1 g1
    subst e
    exact ih h2 g2

theorem nestedEvents_unique {A : Aead} {ls : List Layer} : ∀ {es : List Event} {i : Nat} {a b : Bytes}, NestedEvents A ls i es a → NestedEvents A ls i es b → a = b := by
  intro es
  induction es with
  | nil => intro i a b h h'; rw [show a = [] from h, show b = [] from h']
  | cons e es ih =>
    rintro i a b ⟨f, p, r, h1, h2, rfl, h3⟩ ⟨f', p', r', g1, g2, rfl, g3⟩
    have e1 := frameLayout_unique h1 g1
    subst e1
    rw [nested_unique h2 g2, ih h3 g3]

theorem package_pkg (A : Aead) (l : Layer) (i : Nat) {f : Bytes} (h : f.length + 16 < 2 ^ 32) : Package A l.key (l.start + i) f (pkg A l i f) := by
  obtain ⟨c, hc, hl⟩ := enc_some A l.key (nonceFromNumber (UInt64.ofNat (l.start + i))) h
  simp only [pkg, hc, Option.getD_some]
  exact CryptBytes.package_of_enc hc (by omega)

theorem nested_wrapL (A : Aead) (i : Nat) : ∀ (ls : List Layer) {f : Bytes}, okL ls f.length → Nested A ls i f (wrapL A ls i f) := by
  intro ls
  induction ls with
  | nil => intro f _; rfl
  | cons l ls ih =>
    intro f h
    refine ⟨_, package_pkg A l i h.2.1, ih ?_⟩
    rw [length_pkg A l i h.2.1]
    exact h.2.2

theorem nestedEvents_wraps (A : Aead) (l : Layer) (ls : List Layer) : ∀ (es : List Event) (i : Nat), (∀ e ∈ es, Carry ls e) → NestedEvents A (l :: ls) i es (wraps A (l :: ls) i es) := by
  intro es
  induction es with
  | nil => intro i _; rfl
  | cons e es ih =>
    intro i h
    have he := h e (by simp)
    exact ⟨_, _, _, frame_layout ⟨he.1, by have := he.2; omega⟩, nested_wrapL A i (l :: ls) (he.ok l), rfl, ih (i + 1) fun e' he' => h e' (by simp [he'])⟩

/-- **C77, the wire.** Any number of encrypted layers in each other: whatever the transport answers (partial writes, pending polls), what has gone to the socket is a prefix of the events in
the order in which their emits got the connection, each in one package of the outermost layer, which is in one package of the next, and so on, numbered by each layer from its own start. When no emit
holds the connection, it is all of it: nothing is left in the buffer of any layer. -/
theorem C77_wire (A : Aead) (l : Layer) (ls : List Layer) (checks : Bool) {s : LState (l :: ls).length} {em rd : List Event} (h : Link.Hist ((Link.Kind.layered A l ls).link checks) s em rd)
    (hc : ∀ e ∈ em, (Link.Kind.layered A l ls).carries e) :
    ∃ all, NestedEvents A (l :: ls) 0 em all ∧ s.wire A <+: all ∧ (s.cur = none → s.wire A = all) := by
  have hi := layered_inv A l ls checks h hc
  refine ⟨_, nestedEvents_wraps A l ls em 0 hc, hi.carried.onWire, fun hn => (hi.free hn).2⟩

/-- Reading events and then part of one. -/
theorem readLoop_wraps {A : Aead} {checks closed : Bool} (l : Layer) (ls : List Layer) : ∀ (es : List Event) (i fuel : Nat) (r : RState (ls.length + 1)) (cut : Bytes), (∀ e ∈ es, Carry ls e) →
    es.length < fuel → (cut = [] ∨ ∃ e z, Carry ls e ∧ cut ++ z = wrapL A (l :: ls) (i + es.length) (Wire.frame e) ∧ z ≠ []) →
    (receives A closed (l :: ls)).idle i r (wraps A (l :: ls) i es ++ cut) →
    readLoop (source (layersR A (ls.length + 1))) checks fuel r = (es, if closed then .err (.io .unexpectedEof) else .hang) := by
  intro es
  induction es with
  | nil =>
    intro i fuel r cut hc hf hcut h
    obtain ⟨n, rfl⟩ := Nat.exists_eq_succ_of_ne_zero (by omega : fuel ≠ 0)
    simp only [wraps, List.nil_append] at h
    have hrd : Event.fromAsyncRead (source (layersR A (ls.length + 1))) checks r = if closed then .err (.io .unexpectedEof) else .hang := by
      rcases hcut with rfl | ⟨e, z, he, hz, hne⟩
      · exact (receives A closed (l :: ls)).read_nothing h
      · have hwr := receives_wrap A closed (l :: ls) i (Wire.frame e)
        exact (receives A closed ls).read_cut A l (receives_ok A closed (l :: ls) (he.ok l)) (by
          show cut ++ z = (receives A closed (l :: ls)).wrap i (Wire.frame e)
          rw [hwr]; simpa using hz) hne h
    unfold readLoop
    rw [hrd]
    cases closed <;> rfl
  | cons e es ih =>
    intro i fuel r cut hc hf hcut h
    obtain ⟨n, rfl⟩ := Nat.exists_eq_succ_of_ne_zero (by omega : fuel ≠ 0)
    simp only [List.length_cons] at hf
    have he := hc e (by simp)
    simp only [wraps, List.append_assoc] at h
    rw [← receives_wrap A closed] at h
    obtain ⟨r', g1, g2⟩ := (receives A closed (l :: ls)).read_event (checks := checks) (receives_ok A closed (l :: ls) (he.ok l)) (he.read checks) h
    change Event.fromAsyncRead (source (layersR A (ls.length + 1))) checks r = _ at g1
    rw [readLoop_step n g1, ih (i + 1) n r' cut (fun e' he' => hc e' (by simp [he'])) (by omega) ?_ g2]
    rcases hcut with h | ⟨e', z, h1, h2, h3⟩
    · exact .inl h
    · refine .inr ⟨e', z, h1, ?_, h3⟩
      rw [h2]
      congr 1
      simp only [List.length_cons]
      omega

/-- **C77, the peer.** A peer with the same layers, to which a prefix of such a sequence has come, however the socket cuts it: it reads exactly the events whose packages are complete,
in order, and then waits, or sees the end of the stream if the socket is closed. -/
theorem C77_peer_reads (A : Aead) (l : Layer) (ls : List Layer) (es : List Event) (hc : ∀ e ∈ es, (Link.Kind.layered A l ls).carries e) {all : Bytes} (hall : NestedEvents A (l :: ls) 0 es all)
    (checks : Bool) (sc : Script) (hp : sc.bytes <+: all) (fuel : Nat) (hf : es.length < fuel) :
    ∃ k done, k ≤ es.length ∧
      readLoop (source (layersR A (l :: ls).length)) checks fuel (startR sc (l :: ls)) = (es.take k, if sc.closed then .err (.io .unexpectedEof) else .hang) ∧
      NestedEvents A (l :: ls) 0 (es.take k) done ∧ done <+: sc.bytes ∧
      (∀ more, k < es.length → NestedEvents A (l :: ls) 0 (es.take (k + 1)) more → ¬ more <+: sc.bytes) := by
  have e := nestedEvents_unique hall (nestedEvents_wraps A l ls es 0 hc)
  subst e
  have key : ∀ (es : List Event) (i : Nat) (b : Bytes), (∀ e ∈ es, Carry ls e) → b <+: wraps A (l :: ls) i es →
      ∃ k cut, k ≤ es.length ∧ b = wraps A (l :: ls) i (es.take k) ++ cut ∧
        (cut = [] ∨ ∃ e z, Carry ls e ∧ cut ++ z = wrapL A (l :: ls) (i + (es.take k).length) (Wire.frame e) ∧ z ≠ []) ∧
        (k < es.length → ¬ wraps A (l :: ls) i (es.take (k + 1)) <+: b) := by
    intro es
    induction es with
    | nil =>
      intro i b _ hb
      exact ⟨0, [], by simp, by simpa [wraps] using hb, .inl rfl, by simp⟩
    | cons e es ih =>
      intro i b hc hb
      have he := hc e (by simp)
      simp only [wraps] at hb
      rcases Classical.em (wrapL A (l :: ls) i (Wire.frame e) <+: b) with ⟨b', rfl⟩ | hno
      · have hb' : b' <+: wraps A (l :: ls) (i + 1) es := by simpa using hb
        obtain ⟨k, cut, h1, h2, h3, h4⟩ := ih (i + 1) b' (fun e' he' => hc e' (by simp [he'])) hb'
        refine ⟨k + 1, cut, by simpa using h1, ?_, ?_, ?_⟩
        · simp only [List.take_succ_cons, wraps, List.append_assoc]
          rw [h2]
        · rcases h3 with h3 | ⟨e', z, g1, g2, g3⟩
          · exact .inl h3
          · refine .inr ⟨e', z, g1, ?_, g3⟩
            rw [g2]
            congr 1
            simp only [List.take_succ_cons, List.length_cons]
            omega
        · intro hk
          simp only [List.length_cons, Nat.add_lt_add_iff_right] at hk
          simp only [List.take_succ_cons, wraps]
          rw [List.prefix_append_right_inj]
          exact h4 hk
      · refine ⟨0, b, by simp, by simp [wraps], ?_, ?_⟩
        · rcases List.prefix_or_prefix_of_prefix hb (List.prefix_append _ _) with ⟨z, hz⟩ | h
          · refine .inr ⟨e, z, he, by simpa using hz, ?_⟩
            rintro rfl
            exact hno (by rw [← hz]; simp)
          · exact absurd h hno
        · intro _ h
          simp only [Nat.zero_add, List.take_succ_cons, List.take_zero, wraps, List.append_nil] at h
          exact hno h
  obtain ⟨k, cut, h1, h2, h3, h4⟩ := key es 0 sc.bytes hc hp
  have htk : ∀ k, ∀ e ∈ es.take k, Carry ls e := fun k e he => hc e (List.mem_of_mem_take he)
  refine ⟨k, _, h1, ?_, nestedEvents_wraps A l ls _ 0 (htk k), ⟨cut, h2.symm⟩, ?_⟩
  · have hst := receives_start A sc (l :: ls)
    have hfl : flat sc.chunks = sc.bytes := rfl
    rw [hfl, h2] at hst
    exact readLoop_wraps (checks := checks) l ls (es.take k) 0 fuel _ cut (htk k) (by rw [List.length_take]; omega) h3 hst
  · intro more hk hm
    rw [nestedEvents_unique hm (nestedEvents_wraps A l ls _ 0 (htk (k + 1)))]
    exact h4 hk

/-- **C77, end to end.** What is read from a connection with nested layers is what was emitted, in order. -/
theorem C77_faithful (A : Aead) (l : Layer) (ls : List Layer) (checks : Bool) : ((Link.Kind.layered A l ls).link checks).Faithful (Link.Kind.layered A l ls).carries :=
  C57_faithful (.layered A l ls) checks

/-- **C77, no deadlock.** In every state it is possible, without help from any other emitter, that all the events emitted so far get read. -/
theorem C77_live (A : Aead) (l : Layer) (ls : List Layer) (checks : Bool) : ((Link.Kind.layered A l ls).link checks).Live (Link.Kind.layered A l ls).carries :=
  C58_link_live (.layered A l ls) checks

/-! ### Polls -/

/-- **C77, polls.** However the transport answers, a poll of the emit that holds the connection returns `Ok`, or is pending with its task registered at the socket, and then bytes have gone to the wire if the
socket was ready; it fails only with an error the socket reports, or with `WriteZero` if the socket takes nothing. It does not panic. -/
theorem C77_poll (A : Aead) (l : Layer) (ls : List Layer) (checks : Bool) {s : LState (l :: ls).length} {em rd : List Event} (h : Link.Hist ((Link.Kind.layered A l ls).link checks) s em rd)
    (hc : ∀ e ∈ em, (Link.Kind.layered A l ls).carries e) (st : Stage) (hst : s.cur = some st) (as : List IoAns) :
    ∃ st' w', let p := pollEmit (layersW A (l :: ls).length) ((layersW A (l :: ls).length).setBase s.w { answers := as, wire := s.wire A }) st
      p = (.ready (.ok ()), st', w') ∨
      (p = (.pending true, st', w') ∧ ((∃ n as', as = .ready (n + 1) :: as') → (s.wire A).length < ((layersW A (l :: ls).length).base w').wire.length)) ∨
      (∃ er, p = (.ready (.error er), st', w') ∧ (.fail er ∈ as ∨ (er = .writeZero ∧ .ready 0 ∈ as))) := by
  have hi := layered_inv A l ls checks h hc
  obtain ⟨em0, e, r, h1, h2, h3⟩ := hi.held st hst
  have hp := polled_emit (sends A (l :: ls)) (h2.set { answers := as, wire := s.wire A })
  have hbs := (sends A (l :: ls)).base_set s.w { answers := as, wire := s.wire A }
  rw [hbs] at hp
  change Polled (fun x : Stage × WState (ls.length + 1) => (layersW A (ls.length + 1)).base x.2) _ r _ _
    (pollEmit (layersW A (ls.length + 1)) ((layersW A (ls.length + 1)).setBase s.w { answers := as, wire := s.wire A }) st) at hp
  dsimp only [List.length_cons]
  generalize pollEmit (layersW A (ls.length + 1)) ((layersW A (ls.length + 1)).setBase s.w { answers := as, wire := s.wire A }) st = x at hp
  cases hp with
  | @error er x r' hb hd =>
    obtain ⟨st', w'⟩ := x
    exact ⟨st', w', .inr (.inr ⟨er, rfl, hb⟩)⟩
  | @pending x r' g1 g2 g3 =>
    obtain ⟨st', w'⟩ := x
    refine ⟨st', w', .inr (.inl ⟨rfl, fun hh => ?_⟩)⟩
    rcases g3 with g3 | g3
    · obtain ⟨d, e1, e2⟩ := g2.wire
      dsimp only at e2
      show _ < ((layersW A (ls.length + 1)).base w').wire.length
      rw [e2, List.length_append]
      have : d ≠ [] := by rintro rfl; exact g3 (by simpa using e1.symm)
      have := List.length_pos_iff.2 this
      omega
    · exact absurd hh g3
  | @ready a x r' g1 g2 =>
    obtain ⟨st', w'⟩ := x
    exact ⟨st', w', .inl rfl⟩

/-- C77, polls: however such a poll ends, also with an error, what has gone to the wire is a prefix of the packages of the events. -/
theorem C77_poll_wire (A : Aead) (l : Layer) (ls : List Layer) (checks : Bool) {s : LState (l :: ls).length} {em rd : List Event} (h : Link.Hist ((Link.Kind.layered A l ls).link checks) s em rd)
    (hc : ∀ e ∈ em, (Link.Kind.layered A l ls).carries e) (st : Stage) (hst : s.cur = some st) (as : List IoAns) :
    ∃ all, NestedEvents A (l :: ls) 0 em all ∧
      ((layersW A (l :: ls).length).base (pollEmit (layersW A (l :: ls).length) ((layersW A (l :: ls).length).setBase s.w { answers := as, wire := s.wire A }) st).2.2).wire <+: all := by
  have hi := layered_inv A l ls checks h hc
  refine ⟨_, nestedEvents_wraps A l ls em 0 hc, ?_⟩
  obtain ⟨em0, e, r, h1, h2, h3⟩ := hi.held st hst
  have hp := polled_emit (sends A (l :: ls)) (h2.set { answers := as, wire := s.wire A })
  have hbs := (sends A (l :: ls)).base_set s.w { answers := as, wire := s.wire A }
  rw [hbs] at hp
  change Polled (fun x : Stage × WState (ls.length + 1) => (layersW A (ls.length + 1)).base x.2) _ r _ _
    (pollEmit (layersW A (ls.length + 1)) ((layersW A (ls.length + 1)).setBase s.w { answers := as, wire := s.wire A }) st) at hp
  dsimp only [List.length_cons]
  have key : ∀ (w' : WState (ls.length + 1)) (r' : Bytes), Adv { answers := as, wire := s.wire A } ((layersW A (ls.length + 1)).base w') r r' →
      ((layersW A (ls.length + 1)).base w').wire <+: wraps A (l :: ls) 0 em := by
    rintro w' r' ⟨⟨d, e1, e2⟩, -⟩
    rw [e2]
    refine ⟨r', ?_⟩
    rw [← h3, e1]
    simp only [LState.wire, List.append_assoc]
    rfl
  generalize pollEmit (layersW A (ls.length + 1)) ((layersW A (ls.length + 1)).setBase s.w { answers := as, wire := s.wire A }) st = x at hp
  cases hp with
  | error hb hd => exact key _ _ hd
  | pending g1 g2 g3 => exact key _ _ g2
  | ready g1 g2 => exact key _ _ g2

/-! ### Nonces -/

/-- Layer number `k` has encrypted `m` packages, with `m` from `i` to `j`. -/
def LoggedAt (i j : Nat) : (ls : List Layer) → WState ls.length → Prop
  | [], _ => True
  | l :: ls, (ws, t) => (∃ m, i ≤ m ∧ m ≤ j ∧ Logged l m ws.enc.log) ∧ LoggedAt i j ls t

theorem loggedAt_mono {i j i' j' : Nat} (h1 : i' ≤ i) (h2 : j ≤ j') : ∀ {ls : List Layer} {t : WState ls.length}, LoggedAt i j ls t → LoggedAt i' j' ls t := by
  intro ls
  induction ls with
  | nil => intro t _; trivial
  | cons l ls ih =>
    rintro ⟨ws, t⟩ ⟨⟨m, g1, g2, g3⟩, g4⟩
    exact ⟨⟨m, by omega, by omega, g3⟩, ih g4⟩

theorem logged_sends (A : Aead) : ∀ (ls : List Layer),
    (∀ {i t}, (sends A ls).idle i t → LoggedAt i i ls t) ∧ (∀ {i f rem t r}, (sends A ls).writing i f rem t r → LoggedAt i (i + 1) ls t) ∧
    (∀ {i f t r}, (sends A ls).flushing i f t r → LoggedAt i (i + 1) ls t) := by
  intro ls
  induction ls with
  | nil => exact ⟨fun _ => trivial, fun _ => trivial, fun _ => trivial⟩
  | cons l ls ih =>
    obtain ⟨i1, i2, i3⟩ := ih
    have hidle : ∀ {i t}, (sends A (l :: ls)).idle i t → LoggedAt i i (l :: ls) t := by
      rintro i ⟨ws, t⟩ ⟨⟨lg, h1, h2⟩, h3⟩
      dsimp only at h2 h3
      subst h2
      exact ⟨⟨i, by omega, by omega, h1⟩, i1 h3⟩
    have hfl : ∀ {i f t r}, LFlushing (sends A ls) A l i f t r → LoggedAt i (i + 1) (l :: ls) t := by
      rintro i f ⟨ws, t⟩ r ⟨-, h⟩
      rcases h with ⟨lg, h1, h2, h3, -⟩ | ⟨lg, h1, h2, h3⟩ | ⟨lg, rem, h1, h2, h3⟩ | ⟨lg, h1, h2, h3⟩ <;> dsimp only at h2 h3 <;> subst h2
      · exact ⟨⟨i, by omega, by omega, h1⟩, loggedAt_mono (Nat.le_refl _) (by omega) (i1 h3)⟩
      · exact ⟨⟨i + 1, by omega, by omega, h1⟩, i3 h3⟩
      · exact ⟨⟨i + 1, by omega, by omega, h1⟩, i2 h3⟩
      · exact ⟨⟨i + 1, by omega, by omega, h1⟩, i3 h3⟩
    refine ⟨hidle, ?_, hfl⟩
    rintro i f rem ⟨ws, t⟩ r ⟨-, h⟩
    rcases h with ⟨-, h, -⟩ | ⟨-, lg, rem', h1, h2, h3⟩ | ⟨-, h⟩
    · exact loggedAt_mono (Nat.le_refl _) (by omega) (hidle h)
    · dsimp only at h2 h3
      subst h2
      exact ⟨⟨i + 1, by omega, by omega, h1⟩, i2 h3⟩
    · exact hfl h

theorem loggedAt_logs {i j : Nat} : ∀ {ls : List Layer} {t : WState ls.length}, LoggedAt i j ls t → ∀ (k : Nat) (L : Layer), ls[k]? = some L →
    ∃ lg m, (logs ls.length t)[k]? = some lg ∧ i ≤ m ∧ m ≤ j ∧ Logged L m lg := by
  intro ls
  induction ls with
  | nil => intro t _ k L hk; simp at hk
  | cons l ls ih =>
    rintro ⟨ws, t⟩ ⟨⟨m, g1, g2, g3⟩, g4⟩ k L hk
    cases k with
    | zero =>
      simp only [List.getElem?_cons_zero, Option.some.injEq] at hk
      subst hk
      exact ⟨_, m, rfl, g1, g2, g3⟩
    | succ k =>
      simp only [List.getElem?_cons_succ] at hk
      obtain ⟨lg, m, h1, h2⟩ := ih g4 k L hk
      exact ⟨lg, m, by simpa [logs] using h1, h2⟩

/-- **C77, nonces.** Each layer encrypts one package for each emit, only with its own key, and package number `j` with the nonce for the number `j` after the packages it had sent before; so no nonce occurs twice
among 2^64 packages. -/
theorem C77_nonces (A : Aead) (l : Layer) (ls : List Layer) (checks : Bool) {s : LState (l :: ls).length} {em rd : List Event} (h : Link.Hist ((Link.Kind.layered A l ls).link checks) s em rd)
    (hc : ∀ e ∈ em, (Link.Kind.layered A l ls).carries e) (k : Nat) (L : Layer) (hk : (l :: ls)[k]? = some L) :
    ∃ new, (logs (l :: ls).length s.w)[k]? = some (L.log ++ new) ∧ new.length ≤ em.length ∧ em.length ≤ new.length + 1 ∧ (s.cur = none → new.length = em.length) ∧
      (∀ (j : Nat) (x : Encryption), new[j]? = some x → x.key = L.key ∧ Nonce (L.start + j) x.nonce) ∧
      (new.length ≤ 2 ^ 64 → (new.map Encryption.nonce).Nodup) := by
  have hi := layered_inv A l ls checks h hc
  obtain ⟨hi1, hi2, hi3⟩ := logged_sends A (l :: ls)
  have key : ∃ i j, LoggedAt i j (l :: ls) s.w ∧ j ≤ em.length ∧ em.length ≤ i + 1 ∧ (s.cur = none → i = em.length) := by
    cases hcur : s.cur with
    | none => exact ⟨_, _, hi1 (hi.free hcur).1, Nat.le_refl _, by omega, fun _ => rfl⟩
    | some st =>
      obtain ⟨em0, e, r, g1, g2, -⟩ := hi.held st hcur
      have hl : em.length = em0.length + 1 := by rw [g1]; simp
      refine ⟨em0.length, em0.length + 1, ?_, by omega, by omega, by simp⟩
      cases st with
      | writing rem => exact hi2 g2
      | flushing => exact hi3 g2
  obtain ⟨i, j, g1, g2, g3, g4⟩ := key
  obtain ⟨lg, m, f1, f2, f3, new, rfl, rfl, f6⟩ := loggedAt_logs g1 k L hk
  refine ⟨new, f1, by omega, by omega, fun hn => ?_, fun j x hx => ?_, fun hn => ?_⟩
  · have := g4 hn; omega
  · obtain ⟨k1, k2⟩ := f6 j x hx
    exact ⟨k1, k2 ▸ nonce_spec _⟩
  · rw [List.Nodup, List.pairwise_iff_getElem]
    intro a b ha hb hab heq
    rw [List.length_map] at ha hb
    simp only [List.getElem_map] at heq
    rw [(f6 a _ (List.getElem?_eq_getElem ha)).2, (f6 b _ (List.getElem?_eq_getElem hb)).2] at heq
    have := congrArg UInt64.toNat (nonceFromNumber_inj heq)
    simp only [UInt64.toNat_ofNat'] at this
    omega

/-! ### One layer -/

/-- **C77, one layer.** One encrypted layer over a socket is the encrypted connection of the other properties: polls to write and to flush give the same result, use the same answers and put the same bytes on the
wire. -/
theorem C77_one_layer_write (A : Aead) (ws : WriteStream) (as : List IoAns) (wire buf : Bytes) :
    (layersW A 1).pollWrite (ws, { answers := as, wire := wire }) buf =
      ((ws.pollWrite A buf as).poll, (ws.pollWrite A buf as).ws, { answers := (ws.pollWrite A buf as).rest, wire := wire ++ (ws.pollWrite A buf as).wire }) ∧
    (layersW A 1).pollFlush (ws, { answers := as, wire := wire }) =
      ((ws.pollFlush A as).poll, (ws.pollFlush A as).ws, { answers := (ws.pollFlush A as).rest, wire := wire ++ (ws.pollFlush A as).wire }) :=
  ⟨pollWrite_one A ws as wire buf, pollFlush_one A ws as wire⟩

/-- C77, one layer: the same for a poll to read, in every state that polls lead to from a new stream. -/
theorem C77_one_layer_read (A : Aead) (rs : ReadStream) (sc : Script) (want : Nat) (h : ReadOk rs) :
    (layersR A 1).pollRead (rs, sc) want = ((rs.pollRead A sc.closed want sc.chunks).poll, (rs.pollRead A sc.closed want sc.chunks).filled,
      (rs.pollRead A sc.closed want sc.chunks).rs, { sc with chunks := (rs.pollRead A sc.closed want sc.chunks).chunks }) ∧
    ReadOk (rs.pollRead A sc.closed want sc.chunks).rs :=
  pollRead_one A rs sc want h

/-- C77, one layer: reads that are driven to their end have the same outcome, also if they hang for ever, fail or panic; so do reading an event and the loop that reads events. -/
theorem C77_one_layer_source (A : Aead) (rs : ReadStream) (sc : Script) (h : ReadOk rs) :
    (∀ n, (source (layersR A 1)).readExact n (rs, sc) = ((cryptSource A).readExact n { rs := rs, script := sc }).map fun (b, r) => (b, (r.rs, r.script))) ∧
    (∀ n, (source (layersR A 1)).readInt n (rs, sc) = ((cryptSource A).readInt n { rs := rs, script := sc }).map fun (b, r) => (b, (r.rs, r.script))) ∧
    (∀ checks, Event.fromAsyncRead (source (layersR A 1)) checks (rs, sc) = (Event.fromAsyncRead (cryptSource A) checks { rs := rs, script := sc }).map fun (e, r) => (e, (r.rs, r.script))) ∧
    (∀ checks fuel, readLoop (source (layersR A 1)) checks fuel (rs, sc) = readLoop (cryptSource A) checks fuel { rs := rs, script := sc }) :=
  ⟨fun n => (one_alike A).exact n { rs := rs, script := sc } h, fun n => (one_alike A).int n { rs := rs, script := sc } h,
    fun checks => ((one_alike A).event checks { rs := rs, script := sc } h).1, fun checks fuel => (one_alike A).loop checks fuel { rs := rs, script := sc } h⟩

/-- A new stream. -/
theorem C77_one_layer_new (d : Decryptor) : ReadOk { dec := d } := by
  intro acc h; cases h

/-! ### Examples -/

/-- Three layers; the inner ones have carried key exchanges. -/
abbrev demoLayers : Link.Kind := .layered toyAead { key := [1] } [{ key := [2], start := 2 }, { key := [3], start := 4 }]

/-- Steps, an emit, or a read. -/
inductive LinkOp where
  | step (o : Link.CryptOp)
  | emit (e : Event)
  | read

def linkRun (s : LState 3) : List LinkOp → Option (LState 3 × List Event × List Event)
  | [] => some (s, [], [])
  | .step o :: os => ((demoLayers.link true).step s o).bind fun s => linkRun s os
  | .emit e :: os => ((demoLayers.link true).emit s e).bind fun s => (linkRun s os).map fun (s, em, rd) => (s, e :: em, rd)
  | .read :: os => ((demoLayers.link true).read s).bind fun (e, s) => (linkRun s os).map fun (s, em, rd) => (s, em, e :: rd)

theorem linkRun_hist : ∀ (os : List LinkOp) {s s' : LState 3} {em em' rd rd' : List Event}, Link.Hist (demoLayers.link true) s em rd → linkRun s os = some (s', em', rd') →
    Link.Hist (demoLayers.link true) s' (em ++ em') (rd ++ rd') := by
  intro os
  induction os with
  | nil => intro s s' em em' rd rd' h hr; cases hr; simpa using h
  | cons o os ih =>
    intro s s' em em' rd rd' h hr
    cases o with
    | step o =>
      obtain ⟨s1, h1, h2⟩ := Option.bind_eq_some_iff.1 hr
      exact ih (.step o h h1) h2
    | emit e =>
      obtain ⟨s1, h1, h2⟩ := Option.bind_eq_some_iff.1 hr
      obtain ⟨⟨s2, em2, rd2⟩, h3, h4⟩ := Option.map_eq_some_iff.1 h2
      cases h4
      have := ih (.emit e h h1) h3
      simpa using this
    | read =>
      obtain ⟨⟨e, s1⟩, h1, h2⟩ := Option.bind_eq_some_iff.1 hr
      obtain ⟨⟨s2, em2, rd2⟩, h3, h4⟩ := Option.map_eq_some_iff.1 h2
      cases h4
      have := ih (.read e h h1) h3
      simpa using this

def ev1 : Event := Event.new 7 none "a" [1, 2] none .initiator
def ev2 : Event := Event.new 8 (some "ns") "b" (List.replicate 40 9) none .initiator

/-- Two events over three layers, the first in two polls; then an emit that has written 50 bytes. -/
def opsLayers : List LinkOp := [.emit ev1, .step (.poll [.ready 30, .pending]), .step (.deliver 19), .step .wait, .step (.poll [.ready 1000, .ready 1]), .step (.deliver 69), .read,
  .emit ev2, .step (.poll [.ready 50, .pending])]

/-- The hypotheses of C77 can be met: an event has been read, another is on its way. -/
example : ∃ s st, Link.Hist (demoLayers.link true) s [ev1, ev2] [ev1] ∧ (∀ e ∈ [ev1, ev2], demoLayers.carries e) ∧ s.cur = some st ∧ (s.wire toyAead).length = 90 + 50 := by
  have : ((linkRun (demoLayers.link true).init opsLayers).map fun (s, em, rd) => decide (em = [ev1, ev2] ∧ rd = [ev1] ∧ s.cur.isSome ∧ (s.wire toyAead).length = 90 + 50)) = some true := by decide +kernel
  obtain ⟨⟨s, em, rd⟩, h1, h2⟩ := Option.map_eq_some_iff.1 this
  simp only [decide_eq_true_eq] at h2
  obtain ⟨rfl, rfl, h3, h4⟩ := h2
  obtain ⟨st, hst⟩ := Option.isSome_iff_exists.1 h3
  have := linkRun_hist opsLayers .init h1
  refine ⟨s, st, by simpa using this, ?_, hst, h4⟩
  intro e he
  simp only [List.mem_cons, List.not_mem_nil, or_false] at he
  rcases he with rfl | rfl <;> exact ⟨by decide, by decide⟩

end Bromine.Props
