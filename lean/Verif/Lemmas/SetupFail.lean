import Verif.Model.SetupFail
import Verif.Lemmas.ReadFail
/-
Setting up layers over a socket that fails, over one that is closed at the same point, and over one that is silent from there on: the same, up to there.
-/
namespace Bromine.Layers
open Bromine CryptIO
open Bromine.Handshake (DH Keys)

section
variable {ρ0 ρ1 ρ2 τ : Type} {R0 : ReadT ρ0} {R1 : ReadT ρ1} {R2 : ReadT ρ2} {e : IoErr} {c : Nat}

/-- Three polls of a set-up: the same, or the first waits for ever, the second has come to the end of the stream, the third has met the error. -/
inductive SetupRel {σ0 σ1 σ2 : Type} (st : σ0 → σ1 → σ2 → Prop) (dead : σ0 → Prop) (sock : σ0 → Socket) (rel : ρ0 → ρ1 → ρ2 → Prop) (e : IoErr) : Setup σ0 τ ρ0 → Setup σ1 τ ρ1 → Setup σ2 τ ρ2 → Prop
  | pending {b s0 s1 s2} : st s0 s1 s2 → SetupRel st dead sock rel e (.pending b s0) (.pending b s1) (.pending b s2)
  | done {w r0 r1 r2} : rel r0 r1 r2 → SetupRel st dead sock rel e (.done w r0) (.done w r1) (.done w r2)
  | failed {x k} : SetupRel st dead sock rel e (.failed x k) (.failed x k) (.failed x k)
  | panicked {k} : SetupRel st dead sock rel e (.panicked k) (.panicked k) (.panicked k)
  | ended {s0 k} : dead s0 → (sock s0).wire = k.wire → SetupRel st dead sock rel e (.pending true s0) (.failed (.io .unexpectedEof) k) (.failed (.io e) k)

variable (W : WriteT τ Socket) (S : Trio R0 R1 R2 e c) (A : Aead) (D : DH) (keys : Keys)

/-- The same phase of the client. -/
inductive CliRel : CliPhase τ ρ0 → CliPhase τ ρ1 → CliPhase τ ρ2 → Prop
  | sendPub {rem w r0 r1 r2} : S.rel r0 r1 r2 → CliRel (.sendPub rem w r0) (.sendPub rem w r1) (.sendPub rem w r2)
  | flushPub {w r0 r1 r2} : S.rel r0 r1 r2 → CliRel (.flushPub w r0) (.flushPub w r1) (.flushPub w r2)
  | recvPub {acc w r0 r1 r2} : S.rel r0 r1 r2 → CliRel (.recvPub acc w r0) (.recvPub acc w r1) (.recvPub acc w r2)
  | recvSecret {got w r0 r1 r2} : (S.layer A).rel r0 r1 r2 → CliRel (.recvSecret got w r0) (.recvSecret got w r1) (.recvSecret got w r2)

/-- The client waits for what does not come. -/
inductive CliDead : CliPhase τ ρ0 → Prop
  | recvPub {acc w r} : S.dead r → acc.length < 32 → CliDead (.recvPub acc w r)
  | recvSecret {got w r} : (S.layer A).dead r → got.length < 32 → CliDead (.recvSecret got w r)

/-- The same phase of the server. -/
inductive SrvRel : SrvPhase τ ρ0 → SrvPhase τ ρ1 → SrvPhase τ ρ2 → Prop
  | recvPub {acc w r0 r1 r2} : S.rel r0 r1 r2 → SrvRel (.recvPub acc w r0) (.recvPub acc w r1) (.recvPub acc w r2)
  | sendPub {other rem w r0 r1 r2} : S.rel r0 r1 r2 → SrvRel (.sendPub other rem w r0) (.sendPub other rem w r1) (.sendPub other rem w r2)
  | flushPub {other w r0 r1 r2} : S.rel r0 r1 r2 → SrvRel (.flushPub other w r0) (.flushPub other w r1) (.flushPub other w r2)
  | writeSecret {rem w r0 r1 r2} : (S.layer A).rel r0 r1 r2 → SrvRel (.writeSecret rem w r0) (.writeSecret rem w r1) (.writeSecret rem w r2)
  | flushSecret {w r0 r1 r2} : (S.layer A).rel r0 r1 r2 → SrvRel (.flushSecret w r0) (.flushSecret w r1) (.flushSecret w r2)

/-- The server waits for what does not come. -/
inductive SrvDead : SrvPhase τ ρ0 → Prop
  | recvPub {acc w r} : S.dead r → acc.length < 32 → SrvDead (.recvPub acc w r)

theorem rel_new {secret : Bytes} {r0 : ρ0} {r1 : ρ1} {r2 : ρ2} (h : S.rel r0 r1 r2) : (S.layer A).rel (newR secret r0) (newR secret r1) (newR secret r2) := ⟨rfl, rfl, fun h => absurd rfl h, h⟩

theorem rel_rekey {key : Bytes} {r0 : ReadStream × ρ0} {r1 : ReadStream × ρ1} {r2 : ReadStream × ρ2} (h : (S.layer A).rel r0 r1 r2) : (S.layer A).rel (rekeyR key r0) (rekeyR key r1) (rekeyR key r2) := by
  obtain ⟨h1, h2, h3, h4⟩ := h
  obtain ⟨rs0, r0⟩ := r0
  obtain ⟨rs1, r1⟩ := r1
  obtain ⟨rs2, r2⟩ := r2
  dsimp only at h1 h2 h3 h4
  subst h1 h2
  exact ⟨rfl, rfl, h3, h4⟩

abbrev CRel := SetupRel (τ := WriteStream × τ) (CliRel (τ := τ) S A) (CliDead (τ := τ) S A) (fun x => W.base x.writer) (S.layer A).rel e
abbrev SRel := SetupRel (τ := WriteStream × τ) (SrvRel (τ := τ) S A) (SrvDead (τ := τ) S) (fun x => W.base x.writer) (S.layer A).rel e

theorem rel_cRecvSecret {got : Bytes} {w : WriteStream × τ} {r0 : ReadStream × ρ0} {r1 : ReadStream × ρ1} {r2 : ReadStream × ρ2} (h : (S.layer A).rel r0 r1 r2) :
    CRel W S A (cRecvSecret W R0 A got w r0) (cRecvSecret W R1 A got w r1) (cRecvSecret W R2 A got w r2) := by
  have hf := (S.layer A).fill false 32 _ (got0 := got) (got := got) (Nat.le_refl _) List.prefix_rfl h (Nat.le_refl _)
  unfold cRecvSecret
  generalize Layers.fill (encryptedR R0 A) false 32 got r0 = x0 at hf
  generalize Layers.fill (encryptedR R1 A) false 32 got r1 = x1 at hf
  generalize Layers.fill (encryptedR R2 A) false 32 got r2 = x2 at hf
  cases hf with
  | done g _ _ => exact .done (rel_rekey S A g)
  | pending g _ _ => exact .pending (.recvSecret g)
  | fail _ _ => exact .failed
  | panic _ _ => exact .panicked
  | ended g1 g2 => exact .ended (.recvSecret g1 g2.1) rfl

theorem rel_cRecvPub {acc : Bytes} {w : τ} {r0 : ρ0} {r1 : ρ1} {r2 : ρ2} (h : S.rel r0 r1 r2) : CRel W S A (cRecvPub W R0 A D keys acc w r0) (cRecvPub W R1 A D keys acc w r1) (cRecvPub W R2 A D keys acc w r2) := by
  have hf := S.fill false 32 _ (got0 := acc) (got := acc) (Nat.le_refl _) List.prefix_rfl h (Nat.le_refl _)
  unfold cRecvPub
  generalize Layers.fill R0 false 32 acc r0 = x0 at hf
  generalize Layers.fill R1 false 32 acc r1 = x1 at hf
  generalize Layers.fill R2 false 32 acc r2 = x2 at hf
  cases hf with
  | done g _ _ =>
    dsimp only
    split
    · exact .failed
    · exact rel_cRecvSecret W S A (rel_new S A g)
  | pending g _ _ => exact .pending (.recvPub g)
  | fail _ _ => exact .failed
  | panic _ _ => exact .panicked
  | ended g1 g2 => exact .ended (.recvPub g1 g2.1) rfl

theorem rel_cFlushPub {w : τ} {r0 : ρ0} {r1 : ρ1} {r2 : ρ2} (h : S.rel r0 r1 r2) : CRel W S A (cFlushPub W R0 A D keys w r0) (cFlushPub W R1 A D keys w r1) (cFlushPub W R2 A D keys w r2) := by
  unfold cFlushPub
  split
  · exact rel_cRecvPub W S A D keys h
  · exact .failed
  · exact .pending (.flushPub h)
  · exact .panicked

theorem rel_cSendPub {rem : Bytes} {w : τ} {r0 : ρ0} {r1 : ρ1} {r2 : ρ2} (h : S.rel r0 r1 r2) : CRel W S A (cSendPub W R0 A D keys rem w r0) (cSendPub W R1 A D keys rem w r1) (cSendPub W R2 A D keys rem w r2) := by
  unfold cSendPub
  split
  · exact rel_cFlushPub W S A D keys h
  · exact .failed
  · exact .pending (.sendPub h)
  · exact .panicked

theorem rel_cliPoll {x0 : CliPhase τ ρ0} {x1 : CliPhase τ ρ1} {x2 : CliPhase τ ρ2} (h : CliRel S A x0 x1 x2) : CRel W S A (cliPoll W R0 A D keys x0) (cliPoll W R1 A D keys x1) (cliPoll W R2 A D keys x2) := by
  cases h with
  | sendPub h => exact rel_cSendPub W S A D keys h
  | flushPub h => exact rel_cFlushPub W S A D keys h
  | recvPub h => exact rel_cRecvPub W S A D keys h
  | recvSecret h => exact rel_cRecvSecret W S A h

variable (fresh : Bytes)

theorem rel_sFlushSecret {w : WriteStream × τ} {r0 : ReadStream × ρ0} {r1 : ReadStream × ρ1} {r2 : ReadStream × ρ2} (h : (S.layer A).rel r0 r1 r2) : SRel W S A (sFlushSecret W A fresh w r0) (sFlushSecret W A fresh w r1) (sFlushSecret W A fresh w r2) := by
  unfold sFlushSecret
  split
  · exact .done (rel_rekey S A h)
  · exact .failed
  · exact .pending (.flushSecret h)
  · exact .panicked

theorem rel_sWriteSecret {rem : Bytes} {w : WriteStream × τ} {r0 : ReadStream × ρ0} {r1 : ReadStream × ρ1} {r2 : ReadStream × ρ2} (h : (S.layer A).rel r0 r1 r2) : SRel W S A (sWriteSecret W A fresh rem w r0) (sWriteSecret W A fresh rem w r1) (sWriteSecret W A fresh rem w r2) := by
  unfold sWriteSecret
  split
  · exact rel_sFlushSecret W S A fresh h
  · exact .failed
  · exact .pending (.writeSecret h)
  · exact .panicked

theorem rel_sFlushPub {other : Bytes} {w : τ} {r0 : ρ0} {r1 : ρ1} {r2 : ρ2} (h : S.rel r0 r1 r2) : SRel W S A (sFlushPub W A D keys fresh other w r0) (sFlushPub W A D keys fresh other w r1) (sFlushPub W A D keys fresh other w r2) := by
  unfold sFlushPub
  split
  · exact rel_sWriteSecret W S A fresh (rel_new S A h)
  · exact .failed
  · exact .pending (.flushPub h)
  · exact .panicked

theorem rel_sSendPub {other rem : Bytes} {w : τ} {r0 : ρ0} {r1 : ρ1} {r2 : ρ2} (h : S.rel r0 r1 r2) : SRel W S A (sSendPub W A D keys fresh other rem w r0) (sSendPub W A D keys fresh other rem w r1) (sSendPub W A D keys fresh other rem w r2) := by
  unfold sSendPub
  split
  · exact rel_sFlushPub W S A D keys fresh h
  · exact .failed
  · exact .pending (.sendPub h)
  · exact .panicked

theorem rel_sRecvPub {acc : Bytes} {w : τ} {r0 : ρ0} {r1 : ρ1} {r2 : ρ2} (h : S.rel r0 r1 r2) : SRel W S A (sRecvPub W R0 A D keys fresh acc w r0) (sRecvPub W R1 A D keys fresh acc w r1) (sRecvPub W R2 A D keys fresh acc w r2) := by
  have hf := S.fill false 32 _ (got0 := acc) (got := acc) (Nat.le_refl _) List.prefix_rfl h (Nat.le_refl _)
  unfold sRecvPub
  generalize Layers.fill R0 false 32 acc r0 = x0 at hf
  generalize Layers.fill R1 false 32 acc r1 = x1 at hf
  generalize Layers.fill R2 false 32 acc r2 = x2 at hf
  cases hf with
  | done g _ _ =>
    dsimp only
    split
    · exact .failed
    · exact rel_sSendPub W S A D keys fresh g
  | pending g _ _ => exact .pending (.recvPub g)
  | fail _ _ => exact .failed
  | panic _ _ => exact .panicked
  | ended g1 g2 => exact .ended (.recvPub g1 g2.1) rfl

theorem rel_srvPoll {x0 : SrvPhase τ ρ0} {x1 : SrvPhase τ ρ1} {x2 : SrvPhase τ ρ2} (h : SrvRel S A x0 x1 x2) : SRel W S A (srvPoll W R0 A D keys fresh x0) (srvPoll W R1 A D keys fresh x1) (srvPoll W R2 A D keys fresh x2) := by
  cases h with
  | recvPub h => exact rel_sRecvPub W S A D keys fresh h
  | sendPub h => exact rel_sSendPub W S A D keys fresh h
  | flushPub h => exact rel_sFlushPub W S A D keys fresh h
  | writeSecret h => exact rel_sWriteSecret W S A fresh h
  | flushSecret h => exact rel_sFlushSecret W S A fresh h

theorem cli_dead {x : CliPhase τ ρ0} (h : CliDead S A x) : ∃ x', cliPoll W R0 A D keys x = .pending true x' ∧ CliDead S A x' ∧ x'.writer = x.writer := by
  cases h with
  | recvPub h1 h2 =>
    obtain ⟨r', g1, g2⟩ := S.fill_dead (int := false) h1 h2
    exact ⟨_, by simp only [cliPoll, cRecvPub, g1], .recvPub g2 h2, rfl⟩
  | recvSecret h1 h2 =>
    obtain ⟨r', g1, g2⟩ := (S.layer A).fill_dead (int := false) h1 h2
    exact ⟨_, by simp only [cliPoll, cRecvSecret, g1], .recvSecret g2 h2, rfl⟩

theorem srv_dead {x : SrvPhase τ ρ0} (h : SrvDead S x) : ∃ x', srvPoll W R0 A D keys fresh x = .pending true x' ∧ SrvDead S x' ∧ x'.writer = x.writer := by
  cases h with
  | recvPub h1 h2 =>
    obtain ⟨r', g1, g2⟩ := S.fill_dead (int := false) h1 h2
    exact ⟨_, by simp only [srvPoll, sRecvPub, g1], .recvPub g2 h2, rfl⟩

end

/-- Three futures that set up a connection. -/
structure Triplet {τ ρ0 ρ1 ρ2 : Type} (c0 : Connecting τ ρ0) (c1 : Connecting τ ρ1) (c2 : Connecting τ ρ2) (rel : ρ0 → ρ1 → ρ2 → Prop) (e : IoErr) (cs : List Chunk) where
  st : c0.State → c1.State → c2.State → Prop
  dead : c0.State → Prop
  init : st (c0.init { chunks := cs, closed := false }) (c1.init { chunks := cs, closed := true }) (c2.init { chunks := cs, closed := true })
  poll : ∀ {s0 s1 s2}, st s0 s1 s2 → SetupRel st dead c0.sock rel e (c0.poll s0) (c1.poll s1) (c2.poll s2)
  poll_dead : ∀ {s0}, dead s0 → ∃ s0', c0.poll s0 = .pending true s0' ∧ dead s0' ∧ (c0.sock s0').wire = (c0.sock s0).wire
  sock : ∀ {s0 s1 s2}, st s0 s1 s2 → c1.sock s1 = c0.sock s0 ∧ c2.sock s2 = c0.sock s0
  setSock : ∀ {s0 s1 s2} b, st s0 s1 s2 → st (c0.setSock s0 b) (c1.setSock s1 b) (c2.setSock s2 b)
  set_dead : ∀ {s0} b, dead s0 → dead (c0.setSock s0 b)
  sock_set : ∀ s0 b, c0.sock (c0.setSock s0 b) = b

section
variable {τ ρ0 ρ1 ρ2 : Type} {c0 : Connecting τ ρ0} {c1 : Connecting τ ρ1} {c2 : Connecting τ ρ2} {rel : ρ0 → ρ1 → ρ2 → Prop} {e : IoErr} {cs : List Chunk}

theorem Triplet.run (T : Triplet c0 c1 c2 rel e cs) : ∀ (ps : List (List IoAns)) {x0 : Setup c0.State τ ρ0} {x1 : Setup c1.State τ ρ1}
    {x2 : Setup c2.State τ ρ2}, SetupRel T.st T.dead c0.sock rel e x0 x1 x2 → SetupRel T.st T.dead c0.sock rel e (c0.run x0 ps) (c1.run x1 ps) (c2.run x2 ps) := by
  intro ps
  induction ps with
  | nil => intro x0 x1 x2 h; cases x0 <;> cases x1 <;> cases x2 <;> exact h
  | cons as ps ih =>
    intro x0 x1 x2 h
    cases h with
    | @pending b s0 s1 s2 g =>
      have := T.poll (T.setSock { c0.sock s0 with answers := as } g)
      have h2 := ih this
      simp only [Connecting.run, (T.sock g).1, (T.sock g).2]
      exact h2
    | done g => exact .done g
    | failed => exact .failed
    | panicked => exact .panicked
    | @ended s0 k g1 g2 =>
      obtain ⟨s0', h1, h2, h3⟩ := T.poll_dead (T.set_dead { c0.sock s0 with answers := as } g1)
      rw [T.sock_set] at h3
      have := ih (x0 := .pending true s0') (x1 := .failed (.io .unexpectedEof) k) (x2 := .failed (.io e) k) (.ended h2 (h3.trans g2))
      have e1 : c1.run (.failed (.io .unexpectedEof) k) ps = .failed (.io .unexpectedEof) k := by cases ps <;> rfl
      have e2 : c2.run (.failed (.io e) k) ps = .failed (.io e) k := by cases ps <;> rfl
      rw [e1, e2] at this
      simp only [Connecting.run, h1]
      exact this

/-- An exchange after them. -/
def Triplet.andThen {φ0 φ1 φ2 τ' ρ0' ρ1' ρ2' : Type} (T : Triplet c0 c1 c2 rel e cs) {rel' : ρ0' → ρ1' → ρ2' → Prop} (ph : φ0 → φ1 → φ2 → Prop) (deadph : φ0 → Prop)
    {start0 : τ → ρ0 → Setup φ0 τ' ρ0'} {start1 : τ → ρ1 → Setup φ1 τ' ρ1'} {start2 : τ → ρ2 → Setup φ2 τ' ρ2'} {next0 : φ0 → Setup φ0 τ' ρ0'} {next1 : φ1 → Setup φ1 τ' ρ1'} {next2 : φ2 → Setup φ2 τ' ρ2'}
    {sock0 : φ0 → Socket} {sock1 : φ1 → Socket} {sock2 : φ2 → Socket} {set0 : Socket → φ0 → φ0} {set1 : Socket → φ1 → φ1} {set2 : Socket → φ2 → φ2}
    (hstart : ∀ {w r0 r1 r2}, rel r0 r1 r2 → SetupRel ph deadph sock0 rel' e (start0 w r0) (start1 w r1) (start2 w r2))
    (hnext : ∀ {x0 x1 x2}, ph x0 x1 x2 → SetupRel ph deadph sock0 rel' e (next0 x0) (next1 x1) (next2 x2))
    (hdead : ∀ {x}, deadph x → ∃ x', next0 x = .pending true x' ∧ deadph x' ∧ (sock0 x').wire = (sock0 x).wire)
    (hsock : ∀ {x0 x1 x2}, ph x0 x1 x2 → sock1 x1 = sock0 x0 ∧ sock2 x2 = sock0 x0)
    (hset : ∀ {x0 x1 x2} b, ph x0 x1 x2 → ph (set0 b x0) (set1 b x1) (set2 b x2)) (hsetdead : ∀ {x} b, deadph x → deadph (set0 b x)) (hss : ∀ x b, sock0 (set0 b x) = b) :
    Triplet (c0.andThen start0 next0 sock0 set0) (c1.andThen start1 next1 sock1 set1) (c2.andThen start2 next2 sock2 set2) rel' e cs where
  st
    | .inl s0, .inl s1, .inl s2 => T.st s0 s1 s2
    | .inr x0, .inr x1, .inr x2 => ph x0 x1 x2
    | _, _, _ => False
  dead
    | .inl s0 => T.dead s0
    | .inr x0 => deadph x0
  init := T.init
  poll := by
    intro s0 s1 s2 h
    cases s0 <;> cases s1 <;> cases s2 <;> first | exact h.elim | skip
    · rename_i s0 s1 s2
      have hp := T.poll (show T.st s0 s1 s2 from h)
      simp only [Connecting.andThen]
      generalize c0.poll s0 = x0 at hp
      generalize c1.poll s1 = x1 at hp
      generalize c2.poll s2 = x2 at hp
      cases hp with
      | pending g => exact .pending g
      | @done w r0 r1 r2 g =>
        dsimp only
        have hs := hstart (w := w) g
        generalize start0 w r0 = y0 at hs
        generalize start1 w r1 = y1 at hs
        generalize start2 w r2 = y2 at hs
        cases hs with
        | pending g => exact .pending g
        | done g => exact .done g
        | failed => exact .failed
        | panicked => exact .panicked
        | ended g1 g2 => exact .ended g1 g2
      | failed => exact .failed
      | panicked => exact .panicked
      | ended g1 g2 => exact .ended g1 g2
    · rename_i x0 x1 x2
      have hs := hnext (show ph x0 x1 x2 from h)
      simp only [Connecting.andThen]
      generalize next0 x0 = y0 at hs
      generalize next1 x1 = y1 at hs
      generalize next2 x2 = y2 at hs
      cases hs with
      | pending g => exact .pending g
      | done g => exact .done g
      | failed => exact .failed
      | panicked => exact .panicked
      | ended g1 g2 => exact .ended g1 g2
  poll_dead := by
    intro s0 h
    cases s0 with
    | inl s0 =>
      obtain ⟨s', h1, h2, h3⟩ := T.poll_dead (show T.dead s0 from h)
      exact ⟨.inl s', by simp only [Connecting.andThen, h1], h2, h3⟩
    | inr x0 =>
      obtain ⟨x', h1, h2, h3⟩ := hdead (show deadph x0 from h)
      exact ⟨.inr x', by simp only [Connecting.andThen, h1], h2, h3⟩
  sock := by
    intro s0 s1 s2 h
    cases s0 <;> cases s1 <;> cases s2 <;> first | exact h.elim | skip
    · exact T.sock h
    · exact hsock h
  setSock := by
    intro s0 s1 s2 b h
    cases s0 <;> cases s1 <;> cases s2 <;> first | exact h.elim | skip
    · exact T.setSock b h
    · exact hset b h
  set_dead := by
    intro s0 b h
    cases s0 with
    | inl s0 => exact T.set_dead b h
    | inr x0 => exact hsetdead b h
  sock_set s0 b := by
    cases s0 with
    | inl s0 => exact T.sock_set s0 b
    | inr x0 => exact hss x0 b

end

/-- The sockets. -/
def connectedTriplet (e : IoErr) (after : Script) (cs : List Chunk) : Triplet connected connected (connectedF e after) (socketTrio e after).rel e cs where
  st s0 s1 s2 := s1.1 = s0.1 ∧ s2.1 = s0.1 ∧ (socketTrio e after).rel s0.2 s1.2 s2.2
  dead _ := False
  init := ⟨rfl, rfl, rfl, rfl, rfl⟩
  poll := by
    rintro ⟨k0, r0⟩ ⟨k1, r1⟩ ⟨k2, r2⟩ ⟨h1, h2, h3⟩
    dsimp only at h1 h2 h3
    subst h1 h2
    exact .done h3
  poll_dead h := h.elim
  sock h := ⟨h.1, h.2.1⟩
  setSock _ h := ⟨rfl, rfl, h.2.2⟩
  set_dead _ h := h.elim
  sock_set _ _ := rfl

theorem layersW_base_set (A : Aead) : ∀ (n : Nat) (w : WState n) (b : Socket), (layersW A n).base ((layersW A n).setBase w b) = b
  | 0, _, _ => rfl
  | n + 1, w, b => layersW_base_set A n w.2 b

/-- The client. -/
def clientTriplet (A : Aead) (D : DH) (e : IoErr) (after : Script) (cs : List Chunk) : (xs : List Exchange) → Triplet (client A D xs) (client A D xs) (clientF A D e after xs) (layersTrio A e after xs.length).rel e cs
  | [] => connectedTriplet e after cs
  | x :: xs => (clientTriplet A D e after cs xs).andThen (CliRel (layersTrio A e after xs.length) A) (CliDead (layersTrio A e after xs.length) A) (fun h => rel_cSendPub _ _ A D x.client h) (fun h => rel_cliPoll _ _ A D x.client h)
      (fun h => by
        obtain ⟨x', h1, h2, h3⟩ := cli_dead (layersW A xs.length) _ A D x.client h
        exact ⟨x', h1, h2, by rw [h3]⟩)
      (fun h => by cases h <;> exact ⟨rfl, rfl⟩) (fun b h => by cases h <;> constructor <;> assumption) (fun b h => by cases h <;> constructor <;> assumption)
      (fun x b => by cases x <;> exact layersW_base_set A _ _ b)

/-- The server. -/
def serverTriplet (A : Aead) (D : DH) (e : IoErr) (after : Script) (cs : List Chunk) : (xs : List Exchange) → Triplet (server A D xs) (server A D xs) (serverF A D e after xs) (layersTrio A e after xs.length).rel e cs
  | [] => connectedTriplet e after cs
  | x :: xs => (serverTriplet A D e after cs xs).andThen (SrvRel (layersTrio A e after xs.length) A) (SrvDead (layersTrio A e after xs.length)) (fun h => rel_sRecvPub _ _ A D x.server x.fresh h) (fun h => rel_srvPoll _ _ A D x.server x.fresh h)
      (fun h => by
        obtain ⟨x', h1, h2, h3⟩ := srv_dead (layersW A xs.length) _ A D x.server x.fresh h
        exact ⟨x', h1, h2, by rw [h3]⟩)
      (fun h => by cases h <;> exact ⟨rfl, rfl⟩) (fun b h => by cases h <;> constructor <;> assumption) (fun b h => by cases h <;> constructor <;> assumption)
      (fun x b => by cases x <;> exact layersW_base_set A _ _ b)

theorem client_rel (A : Aead) (D : DH) (xs : List Exchange) (f : Failing) (ps : List (List IoAns)) :
    SetupRel (clientTriplet A D f.err f.after f.chunks xs).st (clientTriplet A D f.err f.after f.chunks xs).dead (client A D xs).sock (layersTrio A f.err f.after xs.length).rel f.err
      (clientRuns A D xs { chunks := f.chunks, closed := false } ps) (clientRuns A D xs { chunks := f.chunks, closed := true } ps) (clientRunsF A D xs f ps) :=
  (clientTriplet A D f.err f.after f.chunks xs).run ps (.pending (clientTriplet A D f.err f.after f.chunks xs).init)

theorem server_rel (A : Aead) (D : DH) (xs : List Exchange) (f : Failing) (ps : List (List IoAns)) :
    SetupRel (serverTriplet A D f.err f.after f.chunks xs).st (serverTriplet A D f.err f.after f.chunks xs).dead (server A D xs).sock (layersTrio A f.err f.after xs.length).rel f.err
      (serverRuns A D xs { chunks := f.chunks, closed := false } ps) (serverRuns A D xs { chunks := f.chunks, closed := true } ps) (serverRunsF A D xs f ps) :=
  (serverTriplet A D f.err f.after f.chunks xs).run ps (.pending (serverTriplet A D f.err f.after f.chunks xs).init)

end Bromine.Layers
