import Verif.Model.LayerExchange
import Verif.Lemmas.LayerShift
/-
Key exchanges over any transport, and in each other.
-/
namespace Bromine.Layers
open Bromine CryptIO
open Bromine.Handshake (DH Keys)

/-- The result of a poll of a set-up. `r`: what was to be sent; `m`: a bound for the polls to come. If `good` then the input is that of the peer; if `live` then all of it is there. -/
inductive Stepped {σ τ ρ : Type} (W : WriteT τ Socket) (R : ReadT ρ) (sock : σ → Socket) (inv : σ → Bytes → Nat → Prop) (fin : τ → ρ → Prop) (good live : Prop) (stop : Error → Prop) (push : Prop)
    (k : Socket) (r : Bytes) (m : Nat) : Setup σ τ ρ → Prop
  | pending {b s' r' m'} : inv s' r' m' → Adv k (sock s') r r' → (good → m' ≤ m) → (good → b = true) → (live → push → m' < m) → Stepped W R sock inv fin good live stop push k r m (.pending b s')
  | done {w x} : fin w x → Adv k (W.base w) r [] → (good → size R x ≤ m) → Stepped W R sock inv fin good live stop push k r m (.done w x)
  | failed {e k' r'} : Adv k k' r r' → (good → (∃ x, e = .io x ∧ Fails k.answers x) ∨ stop e) → Stepped W R sock inv fin good live stop push k r m (.failed e k')
  | panicked {k' r'} : Adv k k' r r' → ¬ good → Stepped W R sock inv fin good live stop push k r m (.panicked k')

section
variable {σ τ ρ : Type} {W : WriteT τ Socket} {R : ReadT ρ} {sock : σ → Socket} {inv : σ → Bytes → Nat → Prop} {fin : τ → ρ → Prop} {good live : Prop} {stop : Error → Prop}

/-- Something has been done before in the same poll. -/
theorem Stepped.after (hlg : live → good) {push push' : Prop} {k1 k2 : Socket} {r1 r2 : Bytes} {m1 m2 : Nat} {x : Setup σ τ ρ} (h : Stepped W R sock inv fin good live stop push k2 r2 m2 x) (ha : Adv k1 k2 r1 r2) (hm : m2 ≤ m1)
    (hp : m2 < m1 ∨ (push' → push)) : Stepped W R sock inv fin good live stop push' k1 r1 m1 x := by
  cases h with
  | pending h1 h2 h3 h4 h5 =>
    refine .pending h1 (ha.trans h2) (fun hg => by have := h3 hg; omega) h4 fun hl hh => ?_
    rcases hp with hp | hp
    · have := h3 (hlg hl); omega
    · have := h5 hl (hp hh); omega
  | done h1 h2 h3 => exact .done h1 (ha.trans h2) (fun hg => by have := h3 hg; omega)
  | failed h1 h2 => exact .failed (ha.trans h1) fun hg => (h2 hg).imp (fun ⟨x, g1, g2⟩ => ⟨x, g1, ha.fails g2⟩) id
  | panicked h1 h2 => exact .panicked (ha.trans h1) h2

end

theorem Adv.length_le {s s' : Socket} {r r' : Bytes} (h : Adv s s' r r') : r'.length ≤ r.length := by
  obtain ⟨⟨d, e, -⟩, -⟩ := h
  rw [e]; simp

theorem Adv.length_lt {s s' : Socket} {r r' : Bytes} (h : Adv s s' r r') (hne : r' ≠ r) : r'.length < r.length := by
  obtain ⟨⟨d, e, -⟩, -⟩ := h
  cases d with
  | nil => exact absurd e.symm hne
  | cons a d => rw [e]; simp; omega

theorem Adv.append {s s' : Socket} {r r' : Bytes} (h : Adv s s' r r') (q : Bytes) : Adv s s' (r ++ q) (r' ++ q) := by
  obtain ⟨⟨d, e1, e2⟩, h2⟩ := h
  exact ⟨⟨d, by rw [e1, List.append_assoc], e2⟩, h2⟩

/-! ### Client -/

section
variable {τ ρ : Type} {W : WriteT τ Socket} {R : ReadT ρ} {closed : Bool} (S : Sends W) (V : Receives R closed) (A : Aead) (D : DH) (keys : Keys) (pubS fresh b0 : Bytes) (good : Prop)

/-- The key of the exchange. -/
abbrev xkey : Bytes := D.dh keys.secret pubS

/-- What the client expects: the package with the key. -/
abbrev cKeyBytes : Bytes := V.wrap 1 (pkg A { key := xkey D keys pubS } 0 fresh)

abbrev cExpects : Bytes := V.wrap 0 pubS ++ cKeyBytes V A D keys pubS fresh

def CInv : CliPhase τ ρ → Bytes → Nat → Prop
  | .sendPub rem w r, u, m => S.writing 0 (D.pub keys.secret) rem w u ∧ V.idle 0 r b0 ∧ m = u.length + size R r
  | .flushPub w r, u, m => S.flushing 0 (D.pub keys.secret) w u ∧ V.idle 0 r b0 ∧ m = u.length + size R r
  | .recvPub acc w r, u, m => S.idle 1 w ∧ u = [] ∧ m = size R r ∧
      (good → ∃ cur av, pubS = acc ++ cur ∧ V.at_ 0 cur av r ∧ (∀ rest, av = some rest → b0 = V.wrap 0 pubS ++ rest ∧ Cmp rest (cKeyBytes V A D keys pubS fresh)) ∧
        (cExpects V A D keys pubS fresh <+: b0 → av ≠ none))
  | .recvSecret got w r, u, m => S.idle 1 w.2 ∧ u = [] ∧ m = size (encryptedR R A) r ∧
      (good → keys.refuses D pubS = false ∧ w.1 = { enc := { key := xkey D keys pubS } } ∧ ∃ cur av, fresh = got ++ cur ∧ ((V.shift 1).layer A { key := xkey D keys pubS }).at_ 0 cur av r ∧
        (∀ rest, av = some rest → b0 = cExpects V A D keys pubS fresh ++ rest) ∧ (cExpects V A D keys pubS fresh <+: b0 → av ≠ none))

/-- The client is done. -/
def CFin (w : WriteStream × τ) (r : ReadStream × ρ) : Prop :=
  good → keys.refuses D pubS = false ∧ ((S.shift 1).layer A { key := fresh }).idle 0 w ∧ ∃ rest, b0 = cExpects V A D keys pubS fresh ++ rest ∧ ((V.shift 2).layer A { key := fresh }).idle 0 r rest

/-- The exchange cannot be completed. -/
def CStop (e : Error) : Prop := (e = .io .unexpectedEof ∧ closed = true ∧ ¬ cExpects V A D keys pubS fresh <+: b0) ∨ (e = .unknownPeer pubS ∧ keys.refuses D pubS = true)

abbrev CStepped (push : Prop) (k : Socket) (r : Bytes) (m : Nat) (x : Setup (CliPhase τ ρ) (WriteStream × τ) (ReadStream × ρ)) : Prop :=
  Stepped (encryptedW W A) (encryptedR R A) (fun x => W.base x.writer) (CInv S V A D keys pubS fresh b0 good) (CFin S V A D keys pubS fresh b0 good) good (cExpects V A D keys pubS fresh <+: b0 ∨ (good ∧ closed = true))
    (CStop (closed := closed) V A D keys pubS fresh b0) push k r m x

variable {S V A D keys pubS fresh b0 good}

theorem c_recvSecret (hf : fresh.length = 32) (hl : cExpects V A D keys pubS fresh <+: b0 ∨ (good ∧ closed = true) → good) {got : Bytes} {w : WriteStream × τ} {r : ReadStream × ρ} {u : Bytes} {m : Nat} (h : CInv S V A D keys pubS fresh b0 good (.recvSecret got w r) u m) :
    CStepped S V A D keys pubS fresh b0 good True (W.base w.2) u m (cRecvSecret W R A got w r) := by
  obtain ⟨h1, rfl, rfl, h2⟩ := h
  unfold cRecvSecret
  by_cases hgood : good
  · obtain ⟨h3, h4, cur, av, h5, h6, h7, h8⟩ := h2 hgood
    have hlen := congrArg List.length h5
    rw [hf, List.length_append] at hlen
    have hfil := ((V.shift 1).layer A { key := xkey D keys pubS }).fill false (32 - got.length) rfl (by omega) h6
    generalize fill (encryptedR R A) false 32 got r = x at hfil
    cases hfil with
    | fail g1 g2 => exact .failed (Adv.refl _ _) fun _ => .inr (.inl ⟨rfl, g2, fun h => h8 h g1⟩)
    | @pending y cur' r' g1 g2 g3 g4 =>
      refine .pending (r' := []) (m' := size (encryptedR R A) r') ⟨h1, rfl, rfl, fun hgood => ⟨h3, h4, cur', av, by rw [h5, g1, List.append_assoc], g3, h7, h8⟩⟩ (Adv.refl _ _) (fun _ => ?_) (fun _ => rfl) ?_
      · rcases g4 with g4 | g4 <;> omega
      · intro hlive _
        rcases g4 with g4 | g4
        · exact g4
        · exact (hlive.elim (fun h => absurd g4.1 (h8 h)) fun h => by have h := h.2; rw [g4.2.1] at h; cases h)
    | @done r' g1 g2 =>
      have e1 : 32 - got.length = cur.length := by omega
      rw [e1, List.drop_length] at g1
      rw [e1, List.take_length, ← h5]
      refine .done (fun _ => ⟨h3, ?_, ?_⟩) (Adv.refl _ _) fun _ => g2
      · refine ⟨⟨[], ⟨[], rfl, rfl, by simp⟩, ?_⟩, h1⟩
        simp only [rekeyW, h4]
        rfl
      · cases av with
        | none => exact absurd g1 (Receives.unfinished _)
        | some rest =>
          have := Receives.finish _ g1
          obtain ⟨i1, i2⟩ := this
          refine ⟨rest, h7 rest rfl, ?_, i2⟩
          simp only [rekeyR, i1]
          rfl
  · cases hx : fill (encryptedR R A) false 32 got r with
    | done got' r' => exact .done (fun hg => absurd hg hgood) (Adv.refl _ _) fun hg => absurd hg hgood
    | pending b acc r' =>
      exact .pending (r' := []) (m' := _) ⟨h1, rfl, rfl, fun hg => absurd hg hgood⟩ (Adv.refl _ _) (fun hg => absurd hg hgood) (fun hg => absurd hg hgood) fun h => absurd (hl h) hgood
    | fail e r' => exact .failed (Adv.refl _ _) fun hg => absurd hg hgood
    | panic r' => exact .panicked (Adv.refl _ _) hgood

theorem c_recvPub (hf : fresh.length = 32) (hok : V.ok 52) (hp : pubS.length = 32) (hl : cExpects V A D keys pubS fresh <+: b0 ∨ (good ∧ closed = true) → good)
    {acc : Bytes} {w : τ} {r : ρ} {u : Bytes} {m : Nat} (h : CInv S V A D keys pubS fresh b0 good (.recvPub acc w r) u m) :
    CStepped S V A D keys pubS fresh b0 good True (W.base w) u m (cRecvPub W R A D keys acc w r) := by
  obtain ⟨h1, rfl, rfl, h2⟩ := h
  unfold cRecvPub
  by_cases hgood : good
  · obtain ⟨cur, av, h5, h6, h7, h8⟩ := h2 hgood
    have hlen := congrArg List.length h5
    rw [hp, List.length_append] at hlen
    have hfil := V.fill false (32 - acc.length) rfl (by omega) h6
    generalize fill R false 32 acc r = x at hfil
    cases hfil with
    | fail g1 g2 => exact .failed (Adv.refl _ _) fun _ => .inr (.inl ⟨rfl, g2, fun h => h8 h g1⟩)
    | @pending y cur' r' g1 g2 g3 g4 =>
      refine .pending (r' := []) (m' := size R r') ⟨h1, rfl, rfl, fun hgood => ⟨cur', av, by rw [h5, g1, List.append_assoc], g3, h7, h8⟩⟩ (Adv.refl _ _) (fun _ => ?_) (fun _ => rfl) ?_
      · rcases g4 with g4 | g4 <;> omega
      · intro hlive _
        rcases g4 with g4 | g4
        · exact g4
        · exact (hlive.elim (fun h => absurd g4.1 (h8 h)) fun h => by have h := h.2; rw [g4.2.1] at h; cases h)
    | @done r' g1 g2 =>
      have e1 : 32 - acc.length = cur.length := by omega
      rw [e1, List.drop_length] at g1
      rw [e1, List.take_length, ← h5]
      cases av with
      | none => exact absurd g1 V.unfinished
      | some rest =>
        have hidle := V.finish g1
        obtain ⟨i1, i2⟩ := h7 rest rfl
        dsimp only
        cases hr : keys.refuses D pubS with
        | true =>
          simp only [if_true]
          exact .failed (Adv.refl _ _) fun _ => .inr (.inr ⟨rfl, hr⟩)
        | false =>
          simp only [Bool.false_eq_true, if_false]
          obtain ⟨av', j1, j2, j3⟩ := ((V.shift 1).layer A { key := xkey D keys pubS }).begin (i := 0) (f := fresh) (q := []) (r := newR (xkey D keys pubS) r') (b := rest) ⟨rfl, hidle⟩
            ⟨by omega, by omega, by rw [hf]; exact hok⟩ (by rw [List.append_nil]; exact i2)
          refine Stepped.after (push := True) hl (c_recvSecret hf hl (u := []) (m := size R r') ?_) (Adv.refl _ _) (by omega) (.inr id)
          refine ⟨h1, rfl, rfl, fun _ => ⟨hr, rfl, fresh, av', rfl, j1, ?_, ?_⟩⟩
          · intro rest' h
            rw [i1, (j2 rest' h).1, ← List.append_assoc]
            rfl
          · intro h
            apply j3
            rw [i1] at h
            exact (List.prefix_append_right_inj _).1 h
  · cases hx : fill R false 32 acc r with
    | done other r' =>
      dsimp only
      cases hr : keys.refuses D other with
      | true =>
        simp only [if_true]
        exact .failed (Adv.refl _ _) fun hg => absurd hg hgood
      | false =>
        simp only [Bool.false_eq_true, if_false]
        have := c_recvSecret (m := _) hf hl (S := S) (V := V) (good := good) (b0 := b0) (got := []) (w := newW (D.dh keys.secret other) w) (r := newR (D.dh keys.secret other) r') (u := []) ⟨h1, rfl, rfl, fun hg => absurd hg hgood⟩
        generalize cRecvSecret W R A [] (newW (D.dh keys.secret other) w) (newR (D.dh keys.secret other) r') = x at this
        cases this with
        | pending g1 g2 g3 g4 g5 => exact .pending g1 g2 (fun hg => absurd hg hgood) g4 fun h => absurd (hl h) hgood
        | done g1 g2 g3 => exact .done g1 g2 fun hg => absurd hg hgood
        | failed g1 g2 => exact .failed g1 g2
        | panicked g1 g2 => exact .panicked g1 g2
    | pending b acc r' =>
      exact .pending (r' := []) (m' := _) ⟨h1, rfl, rfl, fun hg => absurd hg hgood⟩ (Adv.refl _ _) (fun hg => absurd hg hgood) (fun hg => absurd hg hgood) fun h => absurd (hl h) hgood
    | fail e r' => exact .failed (Adv.refl _ _) fun hg => absurd hg hgood
    | panic r' => exact .panicked (Adv.refl _ _) hgood

theorem c_flushPub (hf : fresh.length = 32) (hok : V.ok 52) (hok' : V.ok 32) (hp : pubS.length = 32) (hg : good → Cmp b0 (cExpects V A D keys pubS fresh)) (hl : cExpects V A D keys pubS fresh <+: b0 ∨ (good ∧ closed = true) → good)
    {w : τ} {r : ρ} {u : Bytes} {m : Nat} (h : CInv S V A D keys pubS fresh b0 good (.flushPub w r) u m) :
    CStepped S V A D keys pubS fresh b0 good (HeadReady (W.base w).answers) (W.base w) u m (cFlushPub W R A D keys w r) := by
  obtain ⟨h1, h2, rfl⟩ := h
  have hw := S.flush h1
  unfold cFlushPub
  generalize W.pollFlush w = x at hw
  cases hw with
  | error hb hd => exact .failed hd fun _ => .inl ⟨_, rfl, hb⟩
  | pending g1 g2 g3 =>
    refine .pending ⟨g1, h2, rfl⟩ g2 (fun _ => by have := g2.length_le; omega) (fun _ => rfl) fun _ hh => ?_
    rcases g3 with g3 | g3
    · have := g2.length_lt g3; omega
    · exact absurd hh g3
  | @ready a t' r' g1 g2 =>
    obtain ⟨g1, rfl⟩ := g1
    dsimp only
    refine (c_recvPub hf hok hp hl (u := []) (m := size R r) ⟨g1, rfl, rfl, fun hgood => ?_⟩).after hl g2 (by omega) (.inr fun _ => trivial)
    obtain ⟨av, j1, j2, j3⟩ := V.begin (f := pubS) (q := cKeyBytes V A D keys pubS fresh) h2 (by rw [hp]; exact hok') (hg hgood)
    exact ⟨pubS, av, rfl, j1, j2, fun h => j3 ((List.prefix_append _ _).trans h)⟩

theorem c_sendPub (hf : fresh.length = 32) (hok : V.ok 52) (hok' : V.ok 32) (hp : pubS.length = 32) (hg : good → Cmp b0 (cExpects V A D keys pubS fresh)) (hl : cExpects V A D keys pubS fresh <+: b0 ∨ (good ∧ closed = true) → good)
    {rem : Bytes} {w : τ} {r : ρ} {u : Bytes} {m : Nat} (h : CInv S V A D keys pubS fresh b0 good (.sendPub rem w r) u m) :
    CStepped S V A D keys pubS fresh b0 good (HeadReady (W.base w).answers) (W.base w) u m (cSendPub W R A D keys rem w r) := by
  obtain ⟨h1, h2, rfl⟩ := h
  have hw := S.writeAll _ (Nat.le_refl _) h1
  unfold cSendPub
  generalize writeAll W w rem = x at hw
  cases hw with
  | error hb hd => exact .failed hd fun _ => .inl ⟨_, rfl, hb⟩
  | pending g1 g2 g3 =>
    refine .pending ⟨g1, h2, rfl⟩ g2 (fun _ => by have := g2.length_le; omega) (fun _ => rfl) fun _ hh => ?_
    rcases g3 with g3 | g3
    · have := g2.length_lt g3; omega
    · exact absurd hh g3
  | @ready a t' r' g1 g2 =>
    obtain ⟨-, g1, g3⟩ := g1
    dsimp only
    refine (c_flushPub hf hok hok' hp hg hl ⟨S.written g1, h2, rfl⟩).after hl g2 (by have := g2.length_le; omega) ?_
    rcases g3 with g3 | g3
    · exact .inl (by have := g2.length_lt g3; omega)
    · exact .inr fun h => by rw [g3]; exact h

theorem c_poll (hf : fresh.length = 32) (hok : V.ok 52) (hok' : V.ok 32) (hp : pubS.length = 32) (hg : good → Cmp b0 (cExpects V A D keys pubS fresh)) (hl : cExpects V A D keys pubS fresh <+: b0 ∨ (good ∧ closed = true) → good)
    {x : CliPhase τ ρ} {u : Bytes} {m : Nat} (h : CInv S V A D keys pubS fresh b0 good x u m) :
    CStepped S V A D keys pubS fresh b0 good (HeadReady (W.base x.writer).answers) (W.base x.writer) u m (cliPoll W R A D keys x) := by
  cases x with
  | sendPub rem w r => exact c_sendPub hf hok hok' hp hg hl h
  | flushPub w r => exact c_flushPub hf hok hok' hp hg hl h
  | recvPub acc w r => exact (c_recvPub hf hok hp hl h).after hl (Adv.refl _ _) (Nat.le_refl _) (.inr fun _ => trivial)
  | recvSecret got w r => exact (c_recvSecret hf hl h).after hl (Adv.refl _ _) (Nat.le_refl _) (.inr fun _ => trivial)

theorem CInv.set (b : Socket) {x : CliPhase τ ρ} {u : Bytes} {m : Nat} (h : CInv S V A D keys pubS fresh b0 good x u m) : CInv S V A D keys pubS fresh b0 good (x.setBase W b) u m := by
  cases x with
  | sendPub rem w r => exact ⟨S.writing_set b h.1, h.2⟩
  | flushPub w r => exact ⟨S.flushing_set b h.1, h.2⟩
  | recvPub acc w r => exact ⟨S.idle_set b h.1, h.2⟩
  | recvSecret got w r => exact ⟨S.idle_set b h.1, h.2⟩

end

/-! ### Server -/

section
variable {τ ρ : Type} {W : WriteT τ Socket} {R : ReadT ρ} {closed : Bool} (S : Sends W) (V : Receives R closed) (A : Aead) (D : DH) (keys : Keys) (pubC fresh b0 : Bytes)

/-- What the server sends after its public key. -/
abbrev sKeyBytes : Bytes := S.wrap 1 (pkg A { key := xkey D keys pubC } 0 fresh)

/-- The logs that the server can have when the exchange is over. -/
def SLog (K : Bytes) : Type := { lg : List Encryption // Logged { key := K } 1 lg }

/-- The write half of the server after the exchange. -/
def sLayer (K : Bytes) : Sends (encryptedW W A) :=
  Sends.any (fun lg : SLog K => (S.shift 2).layer A { key := fresh, log := lg.1 }) (fun i f => S.wrap (2 + i) (pkg A { key := fresh } i f)) (LOk S) (fun _ => rfl) (fun _ => rfl) (fun h => h.1) fun t b => S.base_set t.2 b

def SInv : SrvPhase τ ρ → Bytes → Nat → Prop
  | .recvPub acc w r, u, m => S.idle 0 w ∧ u = S.wrap 0 (D.pub keys.secret) ++ sKeyBytes S A D keys pubC fresh ∧ m = u.length + size R r + 1 ∧
      ∃ cur av, pubC = acc ++ cur ∧ V.at_ 0 cur av r ∧ (∀ rest, av = some rest → b0 = V.wrap 0 pubC ++ rest) ∧ (V.wrap 0 pubC <+: b0 → av ≠ none)
  | .sendPub other rem w r, u, m => other = pubC ∧ keys.refuses D pubC = false ∧ m = u.length + size R r + 1 ∧ (∃ u0, S.writing 0 (D.pub keys.secret) rem w u0 ∧ u = u0 ++ sKeyBytes S A D keys pubC fresh) ∧
      ∃ rest, V.idle 1 r rest ∧ b0 = V.wrap 0 pubC ++ rest
  | .flushPub other w r, u, m => other = pubC ∧ keys.refuses D pubC = false ∧ m = u.length + size R r + 1 ∧ (∃ u0, S.flushing 0 (D.pub keys.secret) w u0 ∧ u = u0 ++ sKeyBytes S A D keys pubC fresh) ∧
      ∃ rest, V.idle 1 r rest ∧ b0 = V.wrap 0 pubC ++ rest
  | .writeSecret rem w r, u, m => keys.refuses D pubC = false ∧ m = u.length + size (encryptedR R A) r ∧ ((S.shift 1).layer A { key := xkey D keys pubC }).writing 0 fresh rem w u ∧
      r.1 = { dec := { key := xkey D keys pubC } } ∧ ∃ rest, V.idle 1 r.2 rest ∧ b0 = V.wrap 0 pubC ++ rest
  | .flushSecret w r, u, m => keys.refuses D pubC = false ∧ m = u.length + size (encryptedR R A) r ∧ ((S.shift 1).layer A { key := xkey D keys pubC }).flushing 0 fresh w u ∧
      r.1 = { dec := { key := xkey D keys pubC } } ∧ ∃ rest, V.idle 1 r.2 rest ∧ b0 = V.wrap 0 pubC ++ rest

/-- The server is done. -/
def SFin (w : WriteStream × τ) (r : ReadStream × ρ) : Prop :=
  keys.refuses D pubC = false ∧ (sLayer S A fresh (xkey D keys pubC)).idle 0 w ∧ ∃ rest, b0 = V.wrap 0 pubC ++ rest ∧ ((V.shift 1).layer A { key := fresh }).idle 0 r rest

/-- The exchange cannot be completed. -/
def SStop (e : Error) : Prop := (e = .io .unexpectedEof ∧ closed = true ∧ ¬ V.wrap 0 pubC <+: b0) ∨ (e = .unknownPeer pubC ∧ keys.refuses D pubC = true)

abbrev SStepped (push : Prop) (k : Socket) (r : Bytes) (m : Nat) (x : Setup (SrvPhase τ ρ) (WriteStream × τ) (ReadStream × ρ)) : Prop :=
  Stepped (encryptedW W A) (encryptedR R A) (fun x => W.base x.writer) (SInv S V A D keys pubC fresh b0) (SFin S V A D keys pubC fresh b0) True (V.wrap 0 pubC <+: b0 ∨ closed = true)
    (SStop (closed := closed) V D keys pubC b0) push k r m x

variable {S V A D keys pubC fresh b0}

theorem s_flushSecret {w : WriteStream × τ} {r : ReadStream × ρ} {u : Bytes} {m : Nat} (h : SInv S V A D keys pubC fresh b0 (.flushSecret w r) u m) :
    SStepped S V A D keys pubC fresh b0 (HeadReady (W.base w.2).answers) (W.base w.2) u m (sFlushSecret W A fresh w r) := by
  obtain ⟨h0, rfl, h1, h2, rest, h3, h4⟩ := h
  have hw := ((S.shift 1).layer A { key := xkey D keys pubC }).flush h1
  unfold sFlushSecret
  generalize (encryptedW W A).pollFlush w = x at hw
  cases hw with
  | error hb hd => exact .failed hd fun _ => .inl ⟨_, rfl, hb⟩
  | pending g1 g2 g3 =>
    refine .pending ⟨h0, rfl, g1, h2, rest, h3, h4⟩ g2 (fun _ => by have := g2.length_le; omega) (fun _ => rfl) fun _ hh => ?_
    rcases g3 with g3 | g3
    · have := g2.length_lt g3; omega
    · exact absurd hh g3
  | @ready a t' r' g1 g2 =>
    obtain ⟨⟨⟨lg, g1, g3⟩, g4⟩, rfl⟩ := g1
    refine .done ⟨h0, ⟨⟨lg, g1⟩, ⟨lg, ⟨[], by simp, rfl, by simp⟩, ?_⟩, g4⟩, rest, h4, ?_, h3⟩ g2 fun _ => ?_
    · simp only [rekeyW, g3]
      rfl
    · simp only [rekeyR, h2]
      rfl
    · show size R r.2 ≤ u.length + size R r.2
      omega

theorem s_writeSecret {rem : Bytes} {w : WriteStream × τ} {r : ReadStream × ρ} {u : Bytes} {m : Nat} (h : SInv S V A D keys pubC fresh b0 (.writeSecret rem w r) u m) :
    SStepped S V A D keys pubC fresh b0 (HeadReady (W.base w.2).answers) (W.base w.2) u m (sWriteSecret W A fresh rem w r) := by
  obtain ⟨h0, rfl, h1, h2, rest, h3, h4⟩ := h
  have hw := ((S.shift 1).layer A { key := xkey D keys pubC }).writeAll _ (Nat.le_refl _) h1
  unfold sWriteSecret
  generalize writeAll (encryptedW W A) w rem = x at hw
  cases hw with
  | error hb hd => exact .failed hd fun _ => .inl ⟨_, rfl, hb⟩
  | pending g1 g2 g3 =>
    refine .pending ⟨h0, rfl, g1, h2, rest, h3, h4⟩ g2 (fun _ => by have := g2.length_le; omega) (fun _ => rfl) fun _ hh => ?_
    rcases g3 with g3 | g3
    · have := g2.length_lt g3; omega
    · exact absurd hh g3
  | @ready a t' r' g1 g2 =>
    obtain ⟨-, g1, g3⟩ := g1
    refine (s_flushSecret ⟨h0, rfl, Sends.written _ g1, h2, rest, h3, h4⟩).after (fun _ => trivial) g2 (by have := g2.length_le; omega) ?_
    rcases g3 with g3 | g3
    · exact .inl (by have := g2.length_lt g3; omega)
    · exact .inr fun h => by
        have g3 : (W.base t'.2.2).answers = (W.base w.2).answers := g3
        rw [g3]; exact h

theorem s_flushPub (hf : fresh.length = 32) (hok : S.ok 52) {other : Bytes} {w : τ} {r : ρ} {u : Bytes} {m : Nat} (h : SInv S V A D keys pubC fresh b0 (.flushPub other w r) u m) :
    SStepped S V A D keys pubC fresh b0 (HeadReady (W.base w).answers) (W.base w) u m (sFlushPub W A D keys fresh other w r) := by
  obtain ⟨rfl, h0, rfl, ⟨u0, h1, rfl⟩, rest, h3, h4⟩ := h
  have hw := S.flush h1
  unfold sFlushPub
  generalize W.pollFlush w = x at hw
  cases hw with
  | error hb hd => exact .failed (hd.append _) fun _ => .inl ⟨_, rfl, hb⟩
  | pending g1 g2 g3 =>
    refine .pending ⟨rfl, h0, rfl, ⟨_, g1, rfl⟩, rest, h3, h4⟩ (g2.append _) (fun _ => by have := g2.length_le; simp only [List.length_append]; omega) (fun _ => rfl) fun _ hh => ?_
    rcases g3 with g3 | g3
    · have := g2.length_lt g3; simp only [List.length_append]; omega
    · exact absurd hh g3
  | @ready a t' r' g1 g2 =>
    obtain ⟨g1, rfl⟩ := g1
    have hi : ((S.shift 1).layer A { key := xkey D keys other }).idle 0 (newW (xkey D keys other) t') := ⟨⟨[], ⟨[], rfl, rfl, by simp⟩, rfl⟩, g1⟩
    have hst := Sends.start _ (f := fresh) hi ⟨by omega, by omega, by rw [hf]; exact hok⟩
    have hg := g2.append (sKeyBytes S A D keys other fresh)
    refine (s_writeSecret ⟨h0, rfl, hst, rfl, rest, h3, h4⟩).after (fun _ => trivial) hg ?_ (.inl ?_)
    · have := hg.length_le
      show (sKeyBytes S A D keys other fresh).length + size R r ≤ _
      simp only [List.length_append, List.length_nil] at this ⊢
      omega
    · have := hg.length_le
      show (sKeyBytes S A D keys other fresh).length + size R r < _
      simp only [List.length_append, List.length_nil] at this ⊢
      omega

theorem s_sendPub (hf : fresh.length = 32) (hok : S.ok 52) {other rem : Bytes} {w : τ} {r : ρ} {u : Bytes} {m : Nat} (h : SInv S V A D keys pubC fresh b0 (.sendPub other rem w r) u m) :
    SStepped S V A D keys pubC fresh b0 (HeadReady (W.base w).answers) (W.base w) u m (sSendPub W A D keys fresh other rem w r) := by
  obtain ⟨rfl, h0, rfl, ⟨u0, h1, rfl⟩, rest, h3, h4⟩ := h
  have hw := S.writeAll _ (Nat.le_refl _) h1
  unfold sSendPub
  generalize writeAll W w rem = x at hw
  cases hw with
  | error hb hd => exact .failed (hd.append _) fun _ => .inl ⟨_, rfl, hb⟩
  | pending g1 g2 g3 =>
    refine .pending ⟨rfl, h0, rfl, ⟨_, g1, rfl⟩, rest, h3, h4⟩ (g2.append _) (fun _ => by have := g2.length_le; simp only [List.length_append]; omega) (fun _ => rfl) fun _ hh => ?_
    rcases g3 with g3 | g3
    · have := g2.length_lt g3; simp only [List.length_append]; omega
    · exact absurd hh g3
  | @ready a t' r' g1 g2 =>
    obtain ⟨-, g1, g3⟩ := g1
    refine (s_flushPub hf hok ⟨rfl, h0, rfl, ⟨_, S.written g1, rfl⟩, rest, h3, h4⟩).after (fun _ => trivial) (g2.append _) (by have := g2.length_le; simp only [List.length_append]; omega) ?_
    rcases g3 with g3 | g3
    · exact .inl (by have := g2.length_lt g3; simp only [List.length_append]; omega)
    · exact .inr fun h => by
        have g3 : (W.base t'.2).answers = (W.base w).answers := g3
        rw [g3]; exact h

theorem s_recvPub (hf : fresh.length = 32) (hok : S.ok 52) (hok' : S.ok 32) (hp : pubC.length = 32) {acc : Bytes} {w : τ} {r : ρ} {u : Bytes} {m : Nat} (h : SInv S V A D keys pubC fresh b0 (.recvPub acc w r) u m) :
    SStepped S V A D keys pubC fresh b0 (HeadReady (W.base w).answers) (W.base w) u m (sRecvPub W R A D keys fresh acc w r) := by
  obtain ⟨h1, rfl, rfl, cur, av, h5, h6, h7, h8⟩ := h
  unfold sRecvPub
  have hlen := congrArg List.length h5
  rw [hp, List.length_append] at hlen
  have hfil := V.fill false (32 - acc.length) rfl (by omega) h6
  generalize fill R false 32 acc r = x at hfil
  cases hfil with
  | fail g1 g2 => exact .failed (Adv.refl _ _) fun _ => .inr (.inl ⟨rfl, g2, fun h => h8 h g1⟩)
  | @pending y cur' r' g1 g2 g3 g4 =>
    refine .pending ⟨h1, rfl, rfl, cur', av, by rw [h5, g1, List.append_assoc], g3, h7, h8⟩ (Adv.refl _ _) (fun _ => ?_) (fun _ => rfl) ?_
    · rcases g4 with g4 | g4 <;> omega
    · intro hlive _
      rcases g4 with g4 | g4
      · omega
      · exact (hlive.elim (fun h => absurd g4.1 (h8 h)) fun h => by rw [g4.2.1] at h; cases h)
  | @done r' g1 g2 =>
    have e1 : 32 - acc.length = cur.length := by omega
    rw [e1, List.drop_length] at g1
    rw [e1, List.take_length, ← h5]
    cases av with
    | none => exact absurd g1 V.unfinished
    | some rest =>
      have hidle := V.finish g1
      dsimp only
      cases hr : keys.refuses D pubC with
      | true =>
        simp only [if_true]
        exact .failed (Adv.refl _ _) fun _ => .inr (.inr ⟨rfl, hr⟩)
      | false =>
        simp only [Bool.false_eq_true, if_false]
        exact (s_sendPub hf hok ⟨rfl, hr, rfl, ⟨_, S.start h1 (by rw [D.pub_len]; exact hok'), rfl⟩, rest, hidle, h7 rest rfl⟩).after (fun _ => trivial) (Adv.refl _ _) (by omega) (.inr id)

theorem s_poll (hf : fresh.length = 32) (hok : S.ok 52) (hok' : S.ok 32) (hp : pubC.length = 32) {x : SrvPhase τ ρ} {u : Bytes} {m : Nat} (h : SInv S V A D keys pubC fresh b0 x u m) :
    SStepped S V A D keys pubC fresh b0 (HeadReady (W.base x.writer).answers) (W.base x.writer) u m (srvPoll W R A D keys fresh x) := by
  cases x with
  | recvPub acc w r => exact s_recvPub hf hok hok' hp h
  | sendPub other rem w r => exact s_sendPub hf hok h
  | flushPub other w r => exact s_flushPub hf hok h
  | writeSecret rem w r => exact s_writeSecret h
  | flushSecret w r => exact s_flushSecret h

theorem SInv.set (b : Socket) {x : SrvPhase τ ρ} {u : Bytes} {m : Nat} (h : SInv S V A D keys pubC fresh b0 x u m) : SInv S V A D keys pubC fresh b0 (x.setBase W b) u m := by
  cases x with
  | recvPub acc w r => exact ⟨S.idle_set b h.1, h.2⟩
  | sendPub other rem w r =>
    obtain ⟨h1, h2, h3, ⟨u0, h4, h5⟩, h6⟩ := h
    exact ⟨h1, h2, h3, ⟨u0, S.writing_set b h4, h5⟩, h6⟩
  | flushPub other w r =>
    obtain ⟨h1, h2, h3, ⟨u0, h4, h5⟩, h6⟩ := h
    exact ⟨h1, h2, h3, ⟨u0, S.flushing_set b h4, h5⟩, h6⟩
  | writeSecret rem w r => exact ⟨h.1, h.2.1, Sends.writing_set _ b h.2.2.1, h.2.2.2⟩
  | flushSecret w r => exact ⟨h.1, h.2.1, Sends.flushing_set _ b h.2.2.1, h.2.2.2⟩

end

/-! ### In each other -/

/-- A set-up sends `out`. -/
structure Goes {τ ρ : Type} (c : Connecting τ ρ) (W : WriteT τ Socket) (R : ReadT ρ) (closed : Bool) (b out : Bytes) (fin : τ → ρ → Prop) (good live : Prop) (stop : Error → Prop) (d : Nat) where
  inv : c.State → Bytes → Nat → Prop
  init : ∀ sc : Script, sc.closed = closed → flat sc.chunks = b → inv (c.init sc) out (out.length + sc.chunks.length + d)
  sock_init : ∀ sc, c.sock (c.init sc) = {}
  sock_set : ∀ s k, c.sock (c.setSock s k) = k
  set : ∀ {s r m} k, inv s r m → inv (c.setSock s k) r m
  poll : ∀ {s r m}, inv s r m → Stepped W R c.sock inv fin good live stop (HeadReady (c.sock s).answers) (c.sock s) r m (c.poll s)

def connectedGoes (closed : Bool) (b : Bytes) (good live : Prop) (stop : Error → Prop) :
    Goes connected socket socketR closed b [] (fun _ r => r.closed = closed ∧ flat r.chunks = b) good live stop 0 where
  inv s r m := r = [] ∧ s.2.closed = closed ∧ flat s.2.chunks = b ∧ m = s.2.chunks.length
  init sc h1 h2 := ⟨rfl, h1, h2, by simp [connected]⟩
  sock_init _ := rfl
  sock_set _ _ := rfl
  set _ h := h
  poll := by
    rintro ⟨w, r⟩ u m ⟨rfl, h1, h2, rfl⟩
    exact .done ⟨h1, h2⟩ (Adv.refl _ _) fun _ => Nat.le_refl _

/-- One set-up after another. -/
def Goes.andThen {τ ρ φ τ' ρ' : Type} {c : Connecting τ ρ} {W : WriteT τ Socket} {R : ReadT ρ} {W' : WriteT τ' Socket} {R' : ReadT ρ'} {closed : Bool} {b out out' : Bytes} {fin : τ → ρ → Prop} {fin' : τ' → ρ' → Prop}
    {good live good' live' : Prop} {stop stop' : Error → Prop} {d d' : Nat} {start : τ → ρ → Setup φ τ' ρ'} {next : φ → Setup φ τ' ρ'} {sock : φ → Socket} {set : Socket → φ → φ} (G : Goes c W R closed b out fin good live stop d)
    (hgood : good) (hlive : live' → live) (hstop : ∀ e, stop e → stop' e) (hlg : live' → good') (pinv : φ → Bytes → Nat → Prop)
    (hstart : ∀ w r, fin w r → Stepped W' R' sock pinv fin' good' live' stop' (HeadReady (W.base w).answers) (W.base w) out' (out'.length + size R r + d') (start w r))
    (hnext : ∀ {x u m}, pinv x u m → Stepped W' R' sock pinv fin' good' live' stop' (HeadReady (sock x).answers) (sock x) u m (next x)) (hset : ∀ x k, sock (set k x) = k)
    (pset : ∀ {x u m} k, pinv x u m → pinv (set k x) u m) :
    Goes (c.andThen start next sock set) W' R' closed b (out ++ out') fin' good' live' stop' (d + d' + 1) where
  inv
    | .inl s, r, m => ∃ r0 m0, G.inv s r0 m0 ∧ r = r0 ++ out' ∧ m = m0 + out'.length + d' + 1
    | .inr x, r, m => pinv x r m
  init sc h1 h2 := ⟨out, _, G.init sc h1 h2, rfl, by rw [List.length_append]; omega⟩
  sock_init sc := G.sock_init sc
  sock_set
    | .inl s, k => G.sock_set s k
    | .inr x, k => hset x k
  set := by
    intro s r m k h
    cases s with
    | inl s =>
      obtain ⟨r0, m0, h1, h2⟩ := h
      exact ⟨r0, m0, G.set k h1, h2⟩
    | inr x => exact pset k h
  poll := by
    intro s r m h
    cases s with
    | inr x =>
      have hn := hnext h
      simp only [Connecting.andThen]
      generalize next x = y at hn
      cases hn with
      | pending g1 g2 g3 g4 g5 => exact .pending g1 g2 g3 g4 g5
      | done g1 g2 g3 => exact .done g1 g2 g3
      | failed g1 g2 => exact .failed g1 g2
      | panicked g1 g2 => exact .panicked g1 g2
    | inl s =>
      obtain ⟨r0, m0, h1, rfl, rfl⟩ := h
      have hp := G.poll h1
      simp only [Connecting.andThen]
      generalize c.poll s = y at hp
      cases hp with
      | pending g1 g2 g3 g4 g5 =>
        refine .pending ⟨_, _, g1, rfl, rfl⟩ (g2.append _) (fun _ => by have := g3 hgood; omega) (fun _ => g4 hgood) fun hl hh => ?_
        have := g5 (hlive hl) hh
        omega
      | failed g1 g2 => exact .failed (g1.append _) fun _ => (g2 hgood).imp id (hstop _)
      | panicked g1 g2 => exact absurd hgood g2
      | @done w r g1 g2 g3 =>
        have hn := (hstart w r g1).after (push' := HeadReady (c.sock s).answers) hlg (by simpa using g2.append out') (m1 := m0 + out'.length + d' + 1) (by have := g3 hgood; omega) (.inl (by have := g3 hgood; omega))
        dsimp only
        generalize start w r = y at hn
        cases hn with
        | pending g1 g2 g3 g4 g5 => exact .pending g1 g2 g3 g4 g5
        | done g1 g2 g3 => exact .done g1 g2 g3
        | failed g1 g2 => exact .failed g1 g2
        | panicked g1 g2 => exact .panicked g1 g2

end Bromine.Layers
