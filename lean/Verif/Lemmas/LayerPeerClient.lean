import Verif.Lemmas.LayerPeer
/-
Key exchanges with an arbitrary peer: one layer.
-/
namespace Bromine.Layers
open Bromine CryptIO Spec Props
open Bromine.Handshake (DH Keys)

/-- The result of a poll of a set-up; `as`: the answers that the socket had for it. -/
inductive Safe {σ τ ρ : Type} (base : τ → Socket) (inv : σ → Prop) (fin : τ → ρ → Prop) (err : Error → Prop) (sent : Bytes → Prop) (as : List IoAns) : Setup σ τ ρ → Prop
  | pending {b s'} : inv s' → Safe base inv fin err sent as (.pending b s')
  | done {w r} : fin w r → (base w).answers <:+ as → Safe base inv fin err sent as (.done w r)
  | failed {e k} : ((∃ x, e = .io x ∧ Fails as x) ∨ err e) → sent k.wire → Safe base inv fin err sent as (.failed e k)

theorem Safe.after {σ τ ρ : Type} {base : τ → Socket} {inv : σ → Prop} {fin : τ → ρ → Prop} {err : Error → Prop} {sent : Bytes → Prop} {as as' : List IoAns} {x : Setup σ τ ρ} (h : Safe base inv fin err sent as x) (ha : as <:+ as') :
    Safe base inv fin err sent as' x := by
  cases h with
  | pending h => exact .pending h
  | done h1 h2 => exact .done h1 (h2.trans ha)
  | failed h1 h2 =>
    refine .failed (h1.imp (fun ⟨x, g1, g2⟩ => ⟨x, g1, g2.imp (ha.subset ·) fun g => ⟨g.1, ha.subset g.2⟩⟩) id) h2

theorem Safe.mono {σ τ ρ : Type} {base : τ → Socket} {inv inv' : σ → Prop} {fin fin' : τ → ρ → Prop} {err err' : Error → Prop} {sent sent' : Bytes → Prop} {as : List IoAns} {x : Setup σ τ ρ} (h : Safe base inv fin err sent as x)
    (h1 : ∀ s, inv s → inv' s) (h2 : ∀ w r, fin w r → fin' w r) (h3 : ∀ e, err e → err' e) (h4 : ∀ b, sent b → sent' b) : Safe base inv' fin' err' sent' as x := by
  cases h with
  | pending h => exact .pending (h1 _ h)
  | done g1 g2 => exact .done (h2 _ _ g1) g2
  | failed g1 g2 => exact .failed (g1.imp id (h3 _)) (h4 _ g2)

theorem Adv.total {s s' : Socket} {r r' : Bytes} (h : Adv s s' r r') : s'.wire ++ r' = s.wire ++ r := by
  obtain ⟨⟨d, e1, e2⟩, -⟩ := h
  rw [e1, e2, List.append_assoc]

theorem Adv.sent {s s' : Socket} {r r' out : Bytes} (h : Adv s s' r r') (ho : s.wire ++ r = out) : s'.wire <+: out := ⟨r', by rw [h.total, ho]⟩

/-! ### Client -/

section
variable {τ ρ : Type} {W : WriteT τ Socket} {R : ReadT ρ} {closed : Bool} (S : Sends W) (V : Robust R closed) (A : Aead) (D : DH) (keys : Keys) (out : Bytes)

/-- What is known of a client that sends `out`. -/
def CPeer : CliPhase τ ρ → Prop
  | .sendPub rem w r => ∃ u, S.writing 0 (D.pub keys.secret) rem w u ∧ V.ok r [] ∧ (W.base w).wire ++ u = out
  | .flushPub w r => ∃ u, S.flushing 0 (D.pub keys.secret) w u ∧ V.ok r [] ∧ (W.base w).wire ++ u = out
  | .recvPub acc w r => S.idle 1 w ∧ V.ok r acc ∧ acc.length < 32 ∧ (W.base w).wire = out
  | .recvSecret got w r => S.idle 1 w.2 ∧ got.length < 32 ∧ (W.base w.2).wire = out ∧
      ∃ key, key.length = 32 ∧ keys.refuses D key = false ∧ w.1 = { enc := { key := D.dh keys.secret key } } ∧ LayerOk V A (D.dh keys.secret key) key [] [] r got

def CPeerFin (w : WriteStream × τ) (r : ReadStream × ρ) : Prop :=
  (W.base w.2).wire = out ∧ ∃ key session kept0 plain0 plains, key.length = 32 ∧ keys.refuses D key = false ∧ session.length = 32 ∧ Packages A (D.dh keys.secret key) 0 plains kept0 ∧ plains.flatten = session ++ plain0 ∧
    ((S.shift 1).layer A { key := session }).idle 0 w ∧ LayerOk V A session key kept0 plain0 r [] ∧ r.1.dec.key = session ∧ r.1.remaining = plain0

def CPeerErr (e : Error) : Prop :=
  (e = .io .unexpectedEof ∧ closed = true) ∨
  (e = .io .invalidData ∧ ((∃ m, V.undec m) ∨ ∃ key, key.length = 32 ∧ keys.refuses D key = false ∧ LayerBad V A (D.dh keys.secret key) key [] [] 32)) ∨
  (∃ key r, e = .unknownPeer key ∧ key.length = 32 ∧ keys.refuses D key = true ∧ V.ok r key)

abbrev CSafe (as : List IoAns) (x : Setup (CliPhase τ ρ) (WriteStream × τ) (ReadStream × ρ)) : Prop :=
  Safe (encryptedW W A).base (CPeer S V A D keys out) (CPeerFin S V A D keys out) (CPeerErr V A D keys) (· <+: out) as x

variable {S V A D keys out}

theorem cp_recvSecret {got : Bytes} {w : WriteStream × τ} {r : ReadStream × ρ} (h : CPeer S V A D keys out (.recvSecret got w r)) :
    CSafe S V A D keys out (W.base w.2).answers (cRecvSecret W R A got w r) := by
  obtain ⟨h1, h2, h3, key, h4, h5, h6, h7⟩ := h
  have hfil := (V.layer A (D.dh keys.secret key) key [] []).fill false _ rfl (Nat.le_of_lt h2) h7
  have hidle := @fill_idle ρ R A false (32 - got.length) 32 got
  unfold cRecvSecret
  generalize hx : fill (encryptedR R A) false 32 got r = x at hfil
  cases hfil with
  | fail he =>
    refine .failed (.inr ?_) ⟨[], by rw [h3, List.append_nil]⟩
    rcases he with ⟨rfl, he⟩ | ⟨rfl, he⟩
    · exact .inl ⟨rfl, he⟩
    · refine .inr (.inl ⟨rfl, he.imp id fun he => ⟨key, h4, h5, ?_⟩⟩)
      rw [show got.length + (32 - got.length) = 32 from by omega] at he
      exact he
  | @pending b y lost r' g1 g2 g3 =>
    have hl := g3 (.inl rfl)
    subst hl
    rw [List.append_nil] at g2
    exact .pending ⟨h1, g1, h3, key, h4, h5, h6, g2⟩
  | @done y r' g1 g2 =>
    have hf : r'.1.fut = none := hidle rfl h2 hx
    obtain ⟨came, kept, pkgs, acc, plains, i1, i2, i3, i4, i5, i6, i7, i8⟩ := g2
    have hacc : acc = [] := by
      rcases i8 with ⟨-, i8⟩ | ⟨i8, -⟩
      · exact i8
      · rw [hf] at i8; cases i8
    subst hacc
    refine .done ⟨h3, key, got ++ y, pkgs, r'.1.remaining, plains, h4, h5, g1, i5, by simpa using i6, ⟨⟨[], ⟨[], rfl, rfl, by simp⟩, ?_⟩, h1⟩, ⟨came, kept, [], [], [], i1, i2, i3, by simpa using i4, rfl, by simp [rekeyR], rfl, .inl ⟨hf, rfl⟩⟩, rfl, rfl⟩
      (List.suffix_refl _)
    simp only [rekeyW, h6]
    rfl

theorem cp_recvPub {acc : Bytes} {w : τ} {r : ρ} (h : CPeer S V A D keys out (.recvPub acc w r)) : CSafe S V A D keys out (W.base w).answers (cRecvPub W R A D keys acc w r) := by
  obtain ⟨h1, h2, h3, h4⟩ := h
  have hfil := V.fill false _ rfl (Nat.le_of_lt h3) h2
  unfold cRecvPub
  generalize fill R false 32 acc r = x at hfil
  cases hfil with
  | fail he =>
    refine .failed (.inr ?_) ⟨[], by rw [h4, List.append_nil]⟩
    rcases he with ⟨rfl, he⟩ | ⟨rfl, he⟩
    · exact .inl ⟨rfl, he⟩
    · exact .inr (.inl ⟨rfl, .inl ⟨_, he⟩⟩)
  | @pending b y lost r' g1 g2 g3 =>
    have hl := g3 (.inl rfl)
    subst hl
    rw [List.append_nil] at g2
    exact .pending ⟨h1, g2, g1, h4⟩
  | @done y r' g1 g2 =>
    dsimp only
    cases hr : keys.refuses D (acc ++ y) with
    | true =>
      simp only [if_true]
      exact .failed (.inr (.inr (.inr ⟨_, r', rfl, g1, hr, g2⟩))) ⟨[], by rw [h4, List.append_nil]⟩
    | false =>
      simp only [Bool.false_eq_true, if_false]
      have hl : LayerOk V A (D.dh keys.secret (acc ++ y)) (acc ++ y) [] [] (newR (D.dh keys.secret (acc ++ y)) r') [] :=
        ⟨[], [], [], [], [], by rw [List.append_nil]; exact g2, List.Sublist.refl _, fun _ => rfl, rfl, rfl, rfl, rfl, .inl ⟨rfl, rfl⟩⟩
      exact cp_recvSecret (w := newW (D.dh keys.secret (acc ++ y)) w) ⟨h1, Nat.zero_lt_succ _, h4, acc ++ y, g1, hr, rfl, hl⟩

theorem cp_flushPub {w : τ} {r : ρ} (h : CPeer S V A D keys out (.flushPub w r)) : CSafe S V A D keys out (W.base w).answers (cFlushPub W R A D keys w r) := by
  obtain ⟨u, h1, h2, h3⟩ := h
  have hw := S.flush h1
  unfold cFlushPub
  generalize W.pollFlush w = x at hw
  cases hw with
  | error hb hd => exact .failed (.inl ⟨_, rfl, hb⟩) (hd.sent h3)
  | pending g1 g2 g3 => exact .pending ⟨_, g1, h2, by rw [g2.total, h3]⟩
  | @ready a t' r' g1 g2 =>
    obtain ⟨g1, rfl⟩ := g1
    have := g2.total
    rw [List.append_nil, h3] at this
    exact (cp_recvPub ⟨g1, h2, by simp, this⟩).after g2.answers

theorem cp_sendPub {rem : Bytes} {w : τ} {r : ρ} (h : CPeer S V A D keys out (.sendPub rem w r)) : CSafe S V A D keys out (W.base w).answers (cSendPub W R A D keys rem w r) := by
  obtain ⟨u, h1, h2, h3⟩ := h
  have hw := S.writeAll _ (Nat.le_refl _) h1
  unfold cSendPub
  generalize writeAll W w rem = x at hw
  cases hw with
  | error hb hd => exact .failed (.inl ⟨_, rfl, hb⟩) (hd.sent h3)
  | pending g1 g2 g3 => exact .pending ⟨_, g1, h2, by rw [← h3]; exact g2.total⟩
  | @ready a t' r' g1 g2 =>
    obtain ⟨-, g1, -⟩ := g1
    exact (cp_flushPub ⟨_, S.written g1, h2, by rw [← h3]; exact g2.total⟩).after g2.answers

theorem cp_poll {x : CliPhase τ ρ} (h : CPeer S V A D keys out x) : CSafe S V A D keys out (W.base x.writer).answers (cliPoll W R A D keys x) := by
  cases x with
  | sendPub rem w r => exact cp_sendPub h
  | flushPub w r => exact cp_flushPub h
  | recvPub acc w r => exact cp_recvPub h
  | recvSecret got w r => exact cp_recvSecret h

theorem cp_set {b : Socket} {x : CliPhase τ ρ} (h : CPeer S V A D keys out x) (hb : b.wire = (W.base x.writer).wire) : CPeer S V A D keys out (x.setBase W b) := by
  cases x with
  | sendPub rem w r =>
    obtain ⟨u, h1, h2, h3⟩ := h
    exact ⟨u, S.writing_set b h1, h2, by rw [S.base_set, hb]; exact h3⟩
  | flushPub w r =>
    obtain ⟨u, h1, h2, h3⟩ := h
    exact ⟨u, S.flushing_set b h1, h2, by rw [S.base_set, hb]; exact h3⟩
  | recvPub acc w r =>
    obtain ⟨h1, h2, h3, h4⟩ := h
    exact ⟨S.idle_set b h1, h2, h3, by rw [S.base_set, hb]; exact h4⟩
  | recvSecret got w r =>
    obtain ⟨h1, h2, h3, h4⟩ := h
    exact ⟨S.idle_set b h1, h2, by show (W.base (W.setBase w.2 b)).wire = out; rw [S.base_set, hb]; exact h3, h4⟩

theorem cp_sent {x : CliPhase τ ρ} (h : CPeer S V A D keys out x) : (W.base x.writer).wire <+: out := by
  cases x with
  | sendPub rem w r => obtain ⟨u, -, -, h⟩ := h; exact ⟨u, h⟩
  | flushPub w r => obtain ⟨u, -, -, h⟩ := h; exact ⟨u, h⟩
  | recvPub acc w r => exact ⟨[], by rw [List.append_nil]; exact h.2.2.2⟩
  | recvSecret got w r => exact ⟨[], by rw [List.append_nil]; exact h.2.2.1⟩

end

/-! ### Server -/

section
variable {τ ρ : Type} {W : WriteT τ Socket} {R : ReadT ρ} {closed : Bool} (S : Sends W) (V : Robust R closed) (A : Aead) (D : DH) (keys : Keys) (fresh before : Bytes)

/-- What the server sends to a peer with the public key `key`. -/
abbrev sOut (key : Bytes) : Bytes := before ++ S.wrap 0 (D.pub keys.secret) ++ S.wrap 1 (pkg A { key := D.dh keys.secret key } 0 fresh)

/-- It has heard the key `key`, and trusts it. -/
def SMet (key : Bytes) (r : ρ) : Prop := key.length = 32 ∧ keys.refuses D key = false ∧ V.ok r key

/-- What is known of a server that has sent `before`. -/
def SPeer : SrvPhase τ ρ → Prop
  | .recvPub acc w r => S.idle 0 w ∧ V.ok r acc ∧ acc.length < 32 ∧ (W.base w).wire = before
  | .sendPub other rem w r => SMet V D keys other r ∧ ∃ u, S.writing 0 (D.pub keys.secret) rem w u ∧ (W.base w).wire ++ u = before ++ S.wrap 0 (D.pub keys.secret)
  | .flushPub other w r => SMet V D keys other r ∧ ∃ u, S.flushing 0 (D.pub keys.secret) w u ∧ (W.base w).wire ++ u = before ++ S.wrap 0 (D.pub keys.secret)
  | .writeSecret rem w r => ∃ key u, SMet V D keys key r.2 ∧ r.1 = { dec := { key := D.dh keys.secret key } } ∧ ((S.shift 1).layer A { key := D.dh keys.secret key }).writing 0 fresh rem w u ∧
      (W.base w.2).wire ++ u = sOut S A D keys fresh before key
  | .flushSecret w r => ∃ key u, SMet V D keys key r.2 ∧ r.1 = { dec := { key := D.dh keys.secret key } } ∧ ((S.shift 1).layer A { key := D.dh keys.secret key }).flushing 0 fresh w u ∧
      (W.base w.2).wire ++ u = sOut S A D keys fresh before key

def SPeerFin (w : WriteStream × τ) (r : ReadStream × ρ) : Prop :=
  ∃ key, SMet V D keys key r.2 ∧ (W.base w.2).wire = sOut S A D keys fresh before key ∧ (sLayer S A fresh (D.dh keys.secret key)).idle 0 w ∧ r.1 = { dec := { key := fresh } }

def SPeerErr (e : Error) : Prop :=
  (e = .io .unexpectedEof ∧ closed = true) ∨ (e = .io .invalidData ∧ ∃ m, V.undec m) ∨ (∃ key r, e = .unknownPeer key ∧ key.length = 32 ∧ keys.refuses D key = true ∧ V.ok r key)

/-- What the server has sent. -/
def SSent (bs : Bytes) : Prop := bs = before ∨ ∃ key r, SMet V D keys key r ∧ bs <+: sOut S A D keys fresh before key

abbrev SSafe (as : List IoAns) (x : Setup (SrvPhase τ ρ) (WriteStream × τ) (ReadStream × ρ)) : Prop :=
  Safe (encryptedW W A).base (SPeer S V A D keys fresh before) (SPeerFin S V A D keys fresh before) (SPeerErr V D keys) (SSent S V A D keys fresh before) as x

variable {S V A D keys fresh before}

theorem sp_flushSecret {w : WriteStream × τ} {r : ReadStream × ρ} (h : SPeer S V A D keys fresh before (.flushSecret w r)) :
    SSafe S V A D keys fresh before (W.base w.2).answers (sFlushSecret W A fresh w r) := by
  obtain ⟨key, u, h1, h2, h3, h4⟩ := h
  have hw := Sends.flush _ h3
  unfold sFlushSecret
  generalize (encryptedW W A).pollFlush w = x at hw
  cases hw with
  | error hb hd => exact .failed (.inl ⟨_, rfl, hb⟩) (.inr ⟨key, _, h1, hd.sent h4⟩)
  | pending g1 g2 g3 => exact .pending ⟨key, _, h1, h2, g1, by rw [← h4]; exact g2.total⟩
  | @ready a t' r' g1 g2 =>
    obtain ⟨⟨⟨lg, g1, g3⟩, g4⟩, rfl⟩ := g1
    have ht := g2.total
    rw [List.append_nil] at ht
    refine .done ⟨key, h1, by rw [← h4]; exact ht, ⟨⟨lg, g1⟩, ⟨lg, ⟨[], by simp, rfl, by simp⟩, ?_⟩, g4⟩, ?_⟩ g2.answers
    · simp only [rekeyW, g3]
      rfl
    · simp only [rekeyR, h2]

theorem sp_writeSecret {rem : Bytes} {w : WriteStream × τ} {r : ReadStream × ρ} (h : SPeer S V A D keys fresh before (.writeSecret rem w r)) :
    SSafe S V A D keys fresh before (W.base w.2).answers (sWriteSecret W A fresh rem w r) := by
  obtain ⟨key, u, h1, h2, h3, h4⟩ := h
  have hw := Sends.writeAll _ _ (Nat.le_refl _) h3
  unfold sWriteSecret
  generalize writeAll (encryptedW W A) w rem = x at hw
  cases hw with
  | error hb hd => exact .failed (.inl ⟨_, rfl, hb⟩) (.inr ⟨key, _, h1, hd.sent h4⟩)
  | pending g1 g2 g3 => exact .pending ⟨key, _, h1, h2, g1, by rw [← h4]; exact g2.total⟩
  | @ready a t' r' g1 g2 =>
    obtain ⟨-, g1, -⟩ := g1
    exact (sp_flushSecret ⟨key, _, h1, h2, Sends.written _ g1, by rw [← h4]; exact g2.total⟩).after g2.answers

theorem sp_flushPub (hf : fresh.length = 32) (hok : S.ok 52) {other : Bytes} {w : τ} {r : ρ} (h : SPeer S V A D keys fresh before (.flushPub other w r)) :
    SSafe S V A D keys fresh before (W.base w).answers (sFlushPub W A D keys fresh other w r) := by
  obtain ⟨h1, u, h2, h3⟩ := h
  have hw := S.flush h2
  unfold sFlushPub
  generalize W.pollFlush w = x at hw
  cases hw with
  | error hb hd => exact .failed (.inl ⟨_, rfl, hb⟩) (.inr ⟨other, _, h1, (hd.sent h3).trans (List.prefix_append _ _)⟩)
  | pending g1 g2 g3 => exact .pending ⟨h1, _, g1, by rw [← h3]; exact g2.total⟩
  | @ready a t' r' g1 g2 =>
    obtain ⟨g1, rfl⟩ := g1
    have ht := g2.total
    rw [List.append_nil, h3] at ht
    have hi : ((S.shift 1).layer A { key := D.dh keys.secret other }).idle 0 (newW (D.dh keys.secret other) t') := ⟨⟨[], ⟨[], rfl, rfl, by simp⟩, rfl⟩, g1⟩
    have hst := Sends.start _ (f := fresh) hi ⟨by omega, by omega, by rw [hf]; exact hok⟩
    exact (sp_writeSecret ⟨other, _, h1, rfl, hst, by show (W.base t').wire ++ _ = _; rw [ht]; rfl⟩).after g2.answers

theorem sp_sendPub (hf : fresh.length = 32) (hok : S.ok 52) {other rem : Bytes} {w : τ} {r : ρ} (h : SPeer S V A D keys fresh before (.sendPub other rem w r)) :
    SSafe S V A D keys fresh before (W.base w).answers (sSendPub W A D keys fresh other rem w r) := by
  obtain ⟨h1, u, h2, h3⟩ := h
  have hw := S.writeAll _ (Nat.le_refl _) h2
  unfold sSendPub
  generalize writeAll W w rem = x at hw
  cases hw with
  | error hb hd => exact .failed (.inl ⟨_, rfl, hb⟩) (.inr ⟨other, _, h1, (hd.sent h3).trans (List.prefix_append _ _)⟩)
  | pending g1 g2 g3 => exact .pending ⟨h1, _, g1, by rw [← h3]; exact g2.total⟩
  | @ready a t' r' g1 g2 =>
    obtain ⟨-, g1, -⟩ := g1
    exact (sp_flushPub hf hok ⟨h1, _, S.written g1, by rw [← h3]; exact g2.total⟩).after g2.answers

theorem sp_recvPub (hf : fresh.length = 32) (hok : S.ok 52) (hok' : S.ok 32) {acc : Bytes} {w : τ} {r : ρ} (h : SPeer S V A D keys fresh before (.recvPub acc w r)) :
    SSafe S V A D keys fresh before (W.base w).answers (sRecvPub W R A D keys fresh acc w r) := by
  obtain ⟨h1, h2, h3, h4⟩ := h
  have hfil := V.fill false _ rfl (Nat.le_of_lt h3) h2
  unfold sRecvPub
  generalize fill R false 32 acc r = x at hfil
  cases hfil with
  | fail he =>
    refine .failed (.inr ?_) (.inl h4)
    rcases he with ⟨rfl, he⟩ | ⟨rfl, he⟩
    · exact .inl ⟨rfl, he⟩
    · exact .inr (.inl ⟨rfl, _, he⟩)
  | @pending b y lost r' g1 g2 g3 =>
    have hl := g3 (.inl rfl)
    subst hl
    rw [List.append_nil] at g2
    exact .pending ⟨h1, g2, g1, h4⟩
  | @done y r' g1 g2 =>
    dsimp only
    cases hr : keys.refuses D (acc ++ y) with
    | true =>
      simp only [if_true]
      exact .failed (.inr (.inr (.inr ⟨_, r', rfl, g1, hr, g2⟩))) (.inl h4)
    | false =>
      simp only [Bool.false_eq_true, if_false]
      exact sp_sendPub hf hok ⟨⟨g1, hr, g2⟩, _, S.start h1 (by rw [D.pub_len]; exact hok'), by rw [h4]⟩

theorem sp_poll (hf : fresh.length = 32) (hok : S.ok 52) (hok' : S.ok 32) {x : SrvPhase τ ρ} (h : SPeer S V A D keys fresh before x) :
    SSafe S V A D keys fresh before (W.base x.writer).answers (srvPoll W R A D keys fresh x) := by
  cases x with
  | recvPub acc w r => exact sp_recvPub hf hok hok' h
  | sendPub other rem w r => exact sp_sendPub hf hok h
  | flushPub other w r => exact sp_flushPub hf hok h
  | writeSecret rem w r => exact sp_writeSecret h
  | flushSecret w r => exact sp_flushSecret h

theorem sp_set {b : Socket} {x : SrvPhase τ ρ} (h : SPeer S V A D keys fresh before x) (hb : b.wire = (W.base x.writer).wire) : SPeer S V A D keys fresh before (x.setBase W b) := by
  cases x with
  | recvPub acc w r =>
    obtain ⟨h1, h2, h3, h4⟩ := h
    exact ⟨S.idle_set b h1, h2, h3, by rw [S.base_set, hb]; exact h4⟩
  | sendPub other rem w r =>
    obtain ⟨h1, u, h2, h3⟩ := h
    exact ⟨h1, u, S.writing_set b h2, by rw [S.base_set, hb]; exact h3⟩
  | flushPub other w r =>
    obtain ⟨h1, u, h2, h3⟩ := h
    exact ⟨h1, u, S.flushing_set b h2, by rw [S.base_set, hb]; exact h3⟩
  | writeSecret rem w r =>
    obtain ⟨key, u, h1, h2, h3, h4⟩ := h
    exact ⟨key, u, h1, h2, Sends.writing_set _ b h3, by show (W.base (W.setBase w.2 b)).wire ++ _ = _; rw [S.base_set, hb]; exact h4⟩
  | flushSecret w r =>
    obtain ⟨key, u, h1, h2, h3, h4⟩ := h
    exact ⟨key, u, h1, h2, Sends.flushing_set _ b h3, by show (W.base (W.setBase w.2 b)).wire ++ _ = _; rw [S.base_set, hb]; exact h4⟩

theorem sp_sent {x : SrvPhase τ ρ} (h : SPeer S V A D keys fresh before x) : SSent S V A D keys fresh before (W.base x.writer).wire := by
  cases x with
  | recvPub acc w r => exact .inl h.2.2.2
  | sendPub other rem w r =>
    obtain ⟨h1, u, -, h3⟩ := h
    exact .inr ⟨other, _, h1, List.IsPrefix.trans ⟨u, h3⟩ (List.prefix_append _ _)⟩
  | flushPub other w r =>
    obtain ⟨h1, u, -, h3⟩ := h
    exact .inr ⟨other, _, h1, List.IsPrefix.trans ⟨u, h3⟩ (List.prefix_append _ _)⟩
  | writeSecret rem w r =>
    obtain ⟨key, u, h1, -, -, h4⟩ := h
    exact .inr ⟨key, _, h1, ⟨u, h4⟩⟩
  | flushSecret w r =>
    obtain ⟨key, u, h1, -, -, h4⟩ := h
    exact .inr ⟨key, _, h1, ⟨u, h4⟩⟩

end

end Bromine.Layers
