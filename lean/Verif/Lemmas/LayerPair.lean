import Verif.Lemmas.LayerSetup
/-
Both sides of the set-up of encrypted layers.
-/
namespace Bromine.Layers
open Bromine CryptIO Spec Props
open Bromine.Handshake (DH Keys)

/-! ### Polls append to the wire -/

section
variable {τ ρ : Type} {W : WriteT τ Socket} (h : Appends W) (R : ReadT ρ) (A : Aead) (D : DH) (keys : Keys)
include h

omit h in
theorem cRecvSecret_appends (got : Bytes) (w : WriteStream × τ) (r : ReadStream × ρ) :
    (W.base w.2).wire <+: (cRecvSecret W R A got w r).sent (fun x => W.base x.writer) (encryptedW W A).base := by
  unfold cRecvSecret
  split <;> exact List.prefix_rfl

omit h in
theorem cRecvPub_appends (acc : Bytes) (w : τ) (r : ρ) : (W.base w).wire <+: (cRecvPub W R A D keys acc w r).sent (fun x => W.base x.writer) (encryptedW W A).base := by
  unfold cRecvPub
  split
  · split
    · exact List.prefix_rfl
    · exact cRecvSecret_appends R A _ (newW _ w) _
  all_goals exact List.prefix_rfl

theorem cFlushPub_appends (w : τ) (r : ρ) : (W.base w).wire <+: (cFlushPub W R A D keys w r).sent (fun x => W.base x.writer) (encryptedW W A).base := by
  have hf := h.flush w
  unfold cFlushPub
  split <;> rename_i heq <;> rw [heq] at hf
  · exact hf.trans (cRecvPub_appends R A D keys _ _ _)
  all_goals exact hf

theorem cSendPub_appends (rem : Bytes) (w : τ) (r : ρ) : (W.base w).wire <+: (cSendPub W R A D keys rem w r).sent (fun x => W.base x.writer) (encryptedW W A).base := by
  have hf := h.writeAll _ w rem (Nat.le_refl _)
  unfold cSendPub
  split <;> rename_i heq <;> rw [heq] at hf
  · exact hf.trans (cFlushPub_appends h R A D keys _ _)
  all_goals exact hf

theorem cliPoll_appends (x : CliPhase τ ρ) : (W.base x.writer).wire <+: (cliPoll W R A D keys x).sent (fun x => W.base x.writer) (encryptedW W A).base := by
  cases x with
  | sendPub rem w r => exact cSendPub_appends h R A D keys _ _ _
  | flushPub w r => exact cFlushPub_appends h R A D keys _ _
  | recvPub acc w r => exact cRecvPub_appends R A D keys _ _ _
  | recvSecret got w r => exact cRecvSecret_appends R A _ _ _

variable (fresh : Bytes)

theorem sFlushSecret_appends (w : WriteStream × τ) (r : ReadStream × ρ) : (W.base w.2).wire <+: (sFlushSecret W A fresh w r).sent (fun x => W.base x.writer) (encryptedW W A).base := by
  have hf := (h.layer A).flush w
  unfold sFlushSecret
  split <;> rename_i heq <;> rw [heq] at hf <;> exact hf

theorem sWriteSecret_appends (rem : Bytes) (w : WriteStream × τ) (r : ReadStream × ρ) : (W.base w.2).wire <+: (sWriteSecret W A fresh rem w r).sent (fun x => W.base x.writer) (encryptedW W A).base := by
  have hf := (h.layer A).writeAll _ w rem (Nat.le_refl _)
  unfold sWriteSecret
  split <;> rename_i heq <;> rw [heq] at hf
  · exact hf.trans (sFlushSecret_appends h A fresh _ _)
  all_goals exact hf

theorem sFlushPub_appends (other : Bytes) (w : τ) (r : ρ) : (W.base w).wire <+: (sFlushPub W A D keys fresh other w r).sent (fun x => W.base x.writer) (encryptedW W A).base := by
  have hf := h.flush w
  unfold sFlushPub
  split <;> rename_i heq <;> rw [heq] at hf
  · exact hf.trans (sWriteSecret_appends h A fresh _ (newW _ _) _)
  all_goals exact hf

theorem sSendPub_appends (other rem : Bytes) (w : τ) (r : ρ) : (W.base w).wire <+: (sSendPub W A D keys fresh other rem w r).sent (fun x => W.base x.writer) (encryptedW W A).base := by
  have hf := h.writeAll _ w rem (Nat.le_refl _)
  unfold sSendPub
  split <;> rename_i heq <;> rw [heq] at hf
  · exact hf.trans (sFlushPub_appends h A D keys fresh _ _ _)
  all_goals exact hf

theorem sRecvPub_appends (acc : Bytes) (w : τ) (r : ρ) : (W.base w).wire <+: (sRecvPub W R A D keys fresh acc w r).sent (fun x => W.base x.writer) (encryptedW W A).base := by
  unfold sRecvPub
  split
  · split
    · exact List.prefix_rfl
    · exact sSendPub_appends h A D keys fresh _ _ _ _
  all_goals exact List.prefix_rfl

theorem srvPoll_appends (x : SrvPhase τ ρ) : (W.base x.writer).wire <+: (srvPoll W R A D keys fresh x).sent (fun x => W.base x.writer) (encryptedW W A).base := by
  cases x with
  | recvPub acc w r => exact sRecvPub_appends h R A D keys fresh _ _ _
  | sendPub other rem w r => exact sSendPub_appends h A D keys fresh _ _ _ _
  | flushPub other w r => exact sFlushPub_appends h A D keys fresh _ _ _
  | writeSecret rem w r => exact sWriteSecret_appends h A fresh _ _ _
  | flushSecret w r => exact sFlushSecret_appends h A fresh _ _

end

/-! ### The inner set-up is a part of the run -/

/-- The result `y` of the outer set-up against the result `x` of the inner, after the same polls. -/
def Contains {σ τ ρ σ' τ' ρ' : Type} (sock : σ → Socket) (base : τ → Socket) (sock' : σ' → Socket) (base' : τ' → Socket) (x : Setup σ τ ρ) (y : Setup σ' τ' ρ') : Prop :=
  (x.isDone = false → y.isDone = false ∧ y.sent sock' base' = x.sent sock base) ∧ (x.isDone = true → x.sent sock base <+: y.sent sock' base')

theorem run_ready {τ ρ : Type} (c : Connecting τ ρ) (x : Setup c.State τ ρ) (ps : List (List IoAns)) (hx : ∀ b s, x ≠ .pending b s) : c.run x ps = x := by
  cases x with
  | pending b s => exact absurd rfl (hx b s)
  | done w r => unfold Connecting.run; rfl
  | failed e k => unfold Connecting.run; rfl
  | panicked k => unfold Connecting.run; rfl

section
variable {τ ρ φ τ' ρ' : Type} {c : Connecting τ ρ} {start : τ → ρ → Setup φ τ' ρ'} {next : φ → Setup φ τ' ρ'} {sock : φ → Socket} {set : Socket → φ → φ} {base : τ → Socket} {base' : τ' → Socket}

theorem andThen_grows (hnext : ∀ x, (sock x).wire <+: (next x).sent sock base') (hset : ∀ x k, sock (set k x) = k) :
    ∀ (ps : List (List IoAns)) (b : Bool) (x : φ), (sock x).wire <+: ((c.andThen start next sock set).run (.pending b (.inr x)) ps).sent (c.andThen start next sock set).sock base' := by
  intro ps
  induction ps with
  | nil => intro b x; exact List.prefix_rfl
  | cons as ps ih =>
    intro b x
    have hn := hnext (set { sock x with answers := as } x)
    rw [hset] at hn
    simp only [Connecting.run, Connecting.andThen]
    generalize next (set { sock x with answers := as } x) = y at hn
    cases y with
    | pending b' y => exact List.IsPrefix.trans hn (ih b' y)
    | done w r =>
      dsimp only
      rw [run_ready _ _ _ (by intro b s h; cases h)]
      exact hn
    | failed e k =>
      dsimp only
      rw [run_ready _ _ _ (by intro b s h; cases h)]
      exact hn
    | panicked k =>
      dsimp only
      rw [run_ready _ _ _ (by intro b s h; cases h)]
      exact hn

theorem andThen_contains (hstart : ∀ w r, (base w).wire <+: (start w r).sent sock base') (hnext : ∀ x, (sock x).wire <+: (next x).sent sock base') (hset : ∀ x k, sock (set k x) = k) :
    ∀ (ps : List (List IoAns)) (b : Bool) (s : c.State),
      Contains c.sock base (c.andThen start next sock set).sock base' (c.run (.pending b s) ps) ((c.andThen start next sock set).run (.pending b (.inl s)) ps) := by
  intro ps
  induction ps with
  | nil => intro b s; exact ⟨fun _ => ⟨rfl, rfl⟩, fun h => by cases h⟩
  | cons as ps ih =>
    intro b s
    have hgr := andThen_grows (c := c) (start := start) hnext hset ps
    simp only [Connecting.run, Connecting.andThen] at hgr ih ⊢
    cases hx : c.poll (c.setSock s { c.sock s with answers := as }) with
    | pending b' s' => exact ih b' s'
    | failed e k =>
      dsimp only
      rw [run_ready _ _ _ (by intro b s h; cases h), run_ready _ _ _ (by intro b s h; cases h)]
      exact ⟨fun _ => ⟨rfl, rfl⟩, fun h => by cases h⟩
    | panicked k =>
      dsimp only
      rw [run_ready _ _ _ (by intro b s h; cases h), run_ready _ _ _ (by intro b s h; cases h)]
      exact ⟨fun _ => ⟨rfl, rfl⟩, fun h => by cases h⟩
    | done w r =>
      dsimp only
      rw [run_ready c _ _ (by intro b s h; cases h)]
      refine ⟨(fun h => by cases h), fun _ => ?_⟩
      have hs := hstart w r
      generalize start w r = y at hs
      cases y with
      | pending b' y => exact List.IsPrefix.trans hs (hgr b' y)
      | done w r =>
        dsimp only
        rw [run_ready _ _ _ (by intro b s h; cases h)]
        exact hs
      | failed e k =>
        dsimp only
        rw [run_ready _ _ _ (by intro b s h; cases h)]
        exact hs
      | panicked k =>
        dsimp only
        rw [run_ready _ _ _ (by intro b s h; cases h)]
        exact hs

end

theorem Contains.trans {σ τ ρ σ' τ' ρ' σ'' τ'' ρ'' : Type} {sock : σ → Socket} {base : τ → Socket} {sock' : σ' → Socket} {base' : τ' → Socket} {sock'' : σ'' → Socket} {base'' : τ'' → Socket} {x : Setup σ τ ρ}
    {y : Setup σ' τ' ρ'} {z : Setup σ'' τ'' ρ''} (h : Contains sock base sock' base' x y) (h' : Contains sock' base' sock'' base'' y z) : Contains sock base sock'' base'' x z := by
  constructor
  · intro hx
    obtain ⟨h1, h2⟩ := h.1 hx
    obtain ⟨h3, h4⟩ := h'.1 h1
    exact ⟨h3, h4.trans h2⟩
  · intro hx
    have h1 := h.2 hx
    cases hy : y.isDone with
    | true => exact h1.trans (h'.2 hy)
    | false => rw [(h'.1 hy).2]; exact h1

theorem client_contains (A : Aead) (D : DH) (sc : Script) (ps : List (List IoAns)) (zs : List Exchange) : ∀ ys : List Exchange,
    Contains (client A D zs).sock (layersW A zs.length).base (client A D (ys ++ zs)).sock (layersW A (ys ++ zs).length).base (clientRuns A D zs sc ps) (clientRuns A D (ys ++ zs) sc ps) := by
  intro ys
  induction ys with
  | nil => exact ⟨fun h => ⟨h, rfl⟩, fun _ => List.prefix_rfl⟩
  | cons y ys ih =>
    refine ih.trans ?_
    exact andThen_contains (c := client A D (ys ++ zs)) (base := (layersW A (ys ++ zs).length).base) (base' := (encryptedW (layersW A (ys ++ zs).length) A).base)
      (fun w r => cSendPub_appends (layers_append A _) _ A D _ _ _ _) (fun x => cliPoll_appends (layers_append A _) _ A D _ x)
      (fun x k => by cases x <;> exact (layers_append A _).base_set _ _) ps true ((client A D (ys ++ zs)).init sc)

theorem server_contains (A : Aead) (D : DH) (sc : Script) (ps : List (List IoAns)) (zs : List Exchange) : ∀ ys : List Exchange,
    Contains (server A D zs).sock (layersW A zs.length).base (server A D (ys ++ zs)).sock (layersW A (ys ++ zs).length).base (serverRuns A D zs sc ps) (serverRuns A D (ys ++ zs) sc ps) := by
  intro ys
  induction ys with
  | nil => exact ⟨fun h => ⟨h, rfl⟩, fun _ => List.prefix_rfl⟩
  | cons y ys ih =>
    refine ih.trans ?_
    exact andThen_contains (c := server A D (ys ++ zs)) (base := (layersW A (ys ++ zs).length).base) (base' := (encryptedW (layersW A (ys ++ zs).length) A).base)
      (fun w r => sRecvPub_appends (layers_append A _) _ A D _ _ _ _ _) (fun x => srvPoll_appends (layers_append A _) _ A D _ _ x)
      (fun x k => by cases x <;> exact (layers_append A _).base_set _ _) ps true ((server A D (ys ++ zs)).init sc)

/-! ### Both sides -/

theorem contains_cmp {σ τ ρ σ' τ' ρ' : Type} {sock : σ → Socket} {base : τ → Socket} {sock' : σ' → Socket} {base' : τ' → Socket} {x : Setup σ τ ρ} {y : Setup σ' τ' ρ'} (h : Contains sock base sock' base' x y) {out bs : Bytes}
    (h1 : x.sent sock base <+: out) (h2 : x.isDone = true → x.sent sock base = out) (hr : ReceivedFrom (y.sent sock' base') y.isDone bs) : Cmp bs out := by
  cases hx : x.isDone with
  | true =>
    have h3 := h.2 hx
    rw [h2 hx] at h3
    rcases hr with hr | ⟨-, hr⟩
    · exact .of_prefix hr (.inr h3)
    · exact .inr (h3.trans hr)
  | false =>
    obtain ⟨h3, h4⟩ := h.1 hx
    rcases hr with hr | ⟨hr, -⟩
    · rw [h4] at hr
      exact .inl (hr.trans h1)
    · rw [h3] at hr; cases hr

theorem both_cmp (A : Aead) (D : DH) (xs : List Exchange) (scC scS : Script) (psC psS : List (List IoAns)) (hs : ExchangeSized xs)
    (hc : ReceivedFrom (serverSent A D xs scS psS) (serverRuns A D xs scS psS).isDone (scriptBytes scC)) (hsv : ReceivedFrom (clientSent A D xs scC psC) (clientRuns A D xs scC psC).isDone (scriptBytes scS)) :
    ∀ (zs ys : List Exchange), xs = ys ++ zs → Cmp (scriptBytes scC) (srvStream A D zs) ∧ Cmp (scriptBytes scS) (cliStream A D zs) := by
  intro zs
  induction zs with
  | nil => intro ys _; exact ⟨.nil _, .nil _⟩
  | cons z zs ih =>
    intro ys he
    obtain ⟨ih1, ih2⟩ := ih (ys ++ [z]) (by simp [he])
    have hz : ExchangeSized (z :: zs) := by
      obtain ⟨h1, h2⟩ := hs
      subst he
      simp only [List.length_append] at h2
      exact ⟨fun x hx => h1 x (List.mem_append_right _ hx), by omega⟩
    obtain ⟨G⟩ := cli_goes A D scC.closed (scriptBytes scC) hz ih1
    have hg := (G.runs (sc := scC) rfl psC).sent
    have hcs : Cmp (scriptBytes scS) (cliStream A D (z :: zs)) := by
      have := client_contains A D scC psC (z :: zs) ys
      subst he
      exact contains_cmp this hg.1 hg.2 hsv
    refine ⟨?_, hcs⟩
    obtain ⟨G⟩ := srv_goes A D scS.closed (scriptBytes scS) hz hcs
    have hg := (G.runs (sc := scS) rfl psS).sent
    have := server_contains A D scS psS (z :: zs) ys
    subst he
    exact contains_cmp this hg.1 hg.2 hc

/-! ### The halves -/

theorem cli_writeHalves (A : Aead) : ∀ (xs : List Exchange) (k : Nat) {w : WState xs.length}, (cliSends A xs).idle k w → WriteHalves xs.length (afterPackages k (clientLayers xs)) w := by
  intro xs
  induction xs with
  | nil => intro k w _; trivial
  | cons x xs ih =>
    rintro k ⟨ws, t⟩ ⟨⟨lg, -, h1⟩, h2⟩
    have := ih (1 + k) h2
    refine ⟨⟨lg, h1⟩, ?_⟩
    have e : List.map (fun l : Layer => { l with start := l.start + k }) (afterPackages 1 (clientLayers xs)) = afterPackages (1 + k) (clientLayers xs) := by
      simp [afterPackages, Nat.add_assoc]
    rw [e]
    exact this

theorem srv_writeHalves (A : Aead) (D : DH) : ∀ (xs : List Exchange) (k : Nat) {w : WState xs.length}, (srvSends A D xs).idle k w → WriteHalves xs.length (afterPackages k (serverLayers xs)) w := by
  intro xs
  induction xs with
  | nil => intro k w _; trivial
  | cons x xs ih =>
    rintro k ⟨ws, t⟩ ⟨j, ⟨lg, -, h1⟩, h2⟩
    have := ih (2 + k) h2
    refine ⟨⟨lg, h1⟩, ?_⟩
    have e : List.map (fun l : Layer => { l with start := l.start + k }) (afterPackages 2 (serverLayers xs)) = afterPackages (2 + k) (serverLayers xs) := by
      simp [afterPackages, Nat.add_assoc]
    rw [e]
    exact this

theorem cli_readHalves (A : Aead) (closed : Bool) : ∀ (xs : List Exchange) (k : Nat) {r : RState xs.length} {rest : Bytes}, (cliReceives A closed xs).idle k r rest →
    ReadHalves closed rest xs.length (afterPackages k (serverLayers xs)) r := by
  intro xs
  induction xs with
  | nil => intro k r rest h; exact h
  | cons x xs ih =>
    rintro k ⟨rs, t⟩ rest ⟨h1, h2⟩
    have := ih (2 + k) h2
    refine ⟨h1, ?_⟩
    have e : List.map (fun l : Layer => { l with start := l.start + k }) (afterPackages 2 (serverLayers xs)) = afterPackages (2 + k) (serverLayers xs) := by
      simp [afterPackages, Nat.add_assoc]
    rw [e]
    exact this

theorem srv_readHalves (A : Aead) (closed : Bool) : ∀ (xs : List Exchange) (k : Nat) {r : RState xs.length} {rest : Bytes}, (srvReceives A closed xs).idle k r rest →
    ReadHalves closed rest xs.length (afterPackages k (clientLayers xs)) r := by
  intro xs
  induction xs with
  | nil => intro k r rest h; exact h
  | cons x xs ih =>
    rintro k ⟨rs, t⟩ rest ⟨h1, h2⟩
    have := ih (1 + k) h2
    refine ⟨h1, ?_⟩
    have e : List.map (fun l : Layer => { l with start := l.start + k }) (afterPackages 1 (clientLayers xs)) = afterPackages (1 + k) (clientLayers xs) := by
      simp [afterPackages, Nat.add_assoc]
    rw [e]
    exact this

theorem after_zero (ls : List Layer) : afterPackages 0 ls = ls := by simp [afterPackages]

/-! ### A server that refuses -/

/-- The server waits for a public key that it will refuse. -/
def SRef {τ ρ : Type} {R : ReadT ρ} {closed : Bool} (V : Receives R closed) (pubC b0 : Bytes) : SrvPhase τ ρ → Bytes → Nat → Prop
  | .recvPub acc _ r, u, m => u = [] ∧ m = size R r ∧ ∃ cur av, pubC = acc ++ cur ∧ V.at_ 0 cur av r ∧ (V.wrap 0 pubC <+: b0 → av ≠ none)
  | _, _, _ => False

theorem s_refuses {τ ρ : Type} {W : WriteT τ Socket} {R : ReadT ρ} {closed : Bool} {V : Receives R closed} {A : Aead} {D : DH} {keys : Keys} {pubC fresh b0 : Bytes} (hr : keys.refuses D pubC = true) (hp : pubC.length = 32)
    {x : SrvPhase τ ρ} {u : Bytes} {m : Nat} (h : SRef V pubC b0 x u m) {push : Prop} :
    Stepped (encryptedW W A) (encryptedR R A) (fun x : SrvPhase τ ρ => W.base x.writer) (SRef V pubC b0) (fun _ _ => False) True (V.wrap 0 pubC <+: b0) (fun _ => True) push (W.base x.writer) u m (srvPoll W R A D keys fresh x) := by
  cases x with
  | recvPub acc w r =>
    obtain ⟨rfl, rfl, cur, av, h5, h6, h8⟩ := h
    simp only [srvPoll]
    unfold sRecvPub
    have hlen := congrArg List.length h5
    rw [hp, List.length_append] at hlen
    have hfil := V.fill false (32 - acc.length) rfl (by omega) h6
    generalize fill R false 32 acc r = x at hfil
    cases hfil with
    | fail g1 g2 => exact .failed (Adv.refl _ _) fun _ => .inr trivial
    | @pending y cur' r' g1 g2 g3 g4 =>
      refine .pending (r' := []) ⟨rfl, rfl, cur', av, by rw [h5, g1, List.append_assoc], g3, h8⟩ (Adv.refl _ _) (fun _ => ?_) (fun _ => rfl) ?_
      · rcases g4 with g4 | g4 <;> omega
      · intro hlive _
        rcases g4 with g4 | g4
        · omega
        · exact absurd g4.1 (h8 hlive)
    | @done r' g1 g2 =>
      have e1 : 32 - acc.length = cur.length := by omega
      rw [e1, List.take_length, ← h5]
      dsimp only
      rw [hr]
      simp only [if_true]
      exact .failed (Adv.refl _ _) fun _ => .inr trivial
  | sendPub other rem w r => exact h.elim
  | flushPub other w r => exact h.elim
  | writeSecret rem w r => exact h.elim
  | flushSecret w r => exact h.elim

theorem srv_refuses (A : Aead) (D : DH) (closed : Bool) (b : Bytes) {x : Exchange} {xs : List Exchange} (hs : ExchangeSized (x :: xs)) (hb : Cmp b (cliStream A D (x :: xs))) (hr : ¬ Trusts D x.server (D.pub x.client.secret)) :
    Nonempty (Goes (server A D (x :: xs)) (layersW A (xs.length + 1)) (layersR A (xs.length + 1)) closed b (srvStream A D xs ++ []) (fun _ _ => False) True (cliStream A D (x :: xs) <+: b) (fun _ => True) (2 * xs.length + 0 + 1)) := by
  obtain ⟨hf, hs', hsm⟩ := hs.tail
  obtain ⟨G⟩ := srv_goes A D closed b hs' (hb.prefix_right (by simp [cliStream]))
  have hex : (srvReceives A closed xs).wrap 0 (D.pub x.client.secret) = wrapL A (clientLayers xs) 0 (D.pub x.client.secret) := srvReceives_wrap A closed xs _ _
  have hr' : x.server.refuses D (D.pub x.client.secret) = true := by
    rw [trusts_iff] at hr
    simpa using hr
  let pre := cliStream A D xs
  let b0 := b.drop pre.length
  have hb0 : pre <+: b → b = pre ++ b0 := fun h => (List.prefix_iff_eq_append.1 h).symm
  have hlive : pre <+: b → (wrapL A (clientLayers xs) 0 (D.pub x.client.secret) <+: b0 ↔ cliStream A D (x :: xs) <+: b) := by
    intro h
    rw [hb0 h]
    exact (List.prefix_append_right_inj _).symm
  have okr : (srvReceives A closed xs).ok 32 := srvReceives_ok A closed xs (by omega) (by omega)
  let pinv : SrvPhase (WState xs.length) (RState xs.length) → Bytes → Nat → Prop := fun p u m => pre <+: b ∧ SRef (srvReceives A closed xs) (D.pub x.client.secret) b0 p u m
  refine ⟨Goes.andThen G trivial (fun h => .inl ((List.prefix_append _ _).trans h)) (fun _ _ => trivial) (fun _ => trivial) pinv ?_ ?_ ?_ ?_ (out' := []) (d' := 0)⟩
  · rintro w r ⟨h1, h2, rest, h3, h4⟩
    have hpre : pre <+: b := ⟨rest, h3.symm⟩
    have hrest : rest = b0 := by
      have := hb0 hpre
      rw [h3] at this
      exact List.append_cancel_left this
    subst hrest
    have hg : Cmp b (pre ++ wrapL A (clientLayers xs) 0 (D.pub x.client.secret)) := hb
    rw [hb0 hpre] at hg
    obtain ⟨av, j1, j2, j3⟩ := (srvReceives A closed xs).begin (f := D.pub x.client.secret) (q := []) h4 (by rw [D.pub_len]; exact okr) (by rw [List.append_nil, hex]; exact hg.cancel)
    have := s_refuses (W := layersW A xs.length) (V := srvReceives A closed xs) (A := A) (fresh := x.fresh) (b0 := b0) hr' (D.pub_len _) (x := .recvPub [] w r) (u := []) (m := size _ r) ⟨rfl, rfl, _, av, rfl, j1, j3⟩
      (push := HeadReady ((layersW A xs.length).base w).answers)
    have e : ([] : Bytes).length + size (layersR A xs.length) r + 0 = size (layersR A xs.length) r := by simp
    rw [e]
    exact this.mono (fun _ _ _ h => ⟨hpre, h⟩) (fun _ _ h => h) id (by rw [hex]; exact (hlive hpre).2) (fun _ h => h)
  · rintro p u m ⟨hpre, h2⟩
    exact (s_refuses hr' (D.pub_len _) h2).mono (fun _ _ _ h => ⟨hpre, h⟩) (fun _ _ h => h) id (by rw [hex]; exact (hlive hpre).2) (fun _ h => h)
  · intro p k
    cases p <;> exact (srvSends A D xs).base_set _ _
  · rintro p u m k ⟨h1, h2⟩
    refine ⟨h1, ?_⟩
    cases p with
    | recvPub acc w r => exact h2
    | sendPub other rem w r => exact h2.elim
    | flushPub other w r => exact h2.elim
    | writeSecret rem w r => exact h2.elim
    | flushSecret w r => exact h2.elim

end Bromine.Layers
