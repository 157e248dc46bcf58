import Verif.Lemmas.ExchangeOne
import Verif.Spec.ServerOne
/-
A server whose listener has one encrypted layer (Model/LayerServer.lean) is the encrypted server of Model/Server.lean.
-/
namespace Bromine.Layers
open Bromine CryptIO LayerServer Spec
open Bromine.Handshake (DH Keys SPhase Side)

/-- The exchange with a client over one layer, and over a socket. -/
structure SideSame (s : (Socket × Script) ⊕ SrvPhase Socket Script) (σ : Side SPhase) : Prop where
  same : SrvSame s σ.phase
  sent : (srvSock s).wire = σ.sent
  inbox : flat (srvReader s).chunks = σ.inbox
  closed : σ.closed = true → (srvReader s).closed = true ∧ (parted (srvReader s).chunks).2 = none

/-- The exchange after one more poll. -/
inductive SideAfter : Setup ((Socket × Script) ⊕ SrvPhase Socket Script) (WriteStream × Socket) (ReadStream × Script) → Side SPhase → Prop
  | pending {b : Bool} {s : (Socket × Script) ⊕ SrvPhase Socket Script} {σ : Side SPhase} : SideSame s σ → SideAfter (.pending b s) σ
  | done {w : WriteStream × Socket} {r : ReadStream × Script} {σ : Side SPhase} : σ.phase = .done { read := r.1, write := w.1 } → SideAfter (.done w r) σ
  | failed {e : Error} {k : Socket} {σ : Side SPhase} : σ.phase = .failed e → SideAfter (.failed e k) σ
  | panicked {k : Socket} {σ : Side SPhase} : σ.phase = .panicked → SideAfter (.panicked k) σ

/-- A state of the layer with new answers of the socket. -/
theorem server_set {A : Aead} {D : DH} (x : Exchange) (s : (Socket × Script) ⊕ SrvPhase Socket Script) (b : Socket) :
    (∀ ph, SrvSame s ph → SrvSame ((server A D [x]).setSock s b) ph) ∧ srvReader ((server A D [x]).setSock s b) = srvReader s ∧ srvSock ((server A D [x]).setSock s b) = b := by
  refine ⟨fun ph h => ?_, ?_, ?_⟩
  · cases h <;> constructor; assumption
  · rcases s with s | (_ | _ | _ | _ | _) <;> rfl
  · rcases s with s | (_ | _ | _ | _ | _) <;> rfl

theorem server_sock {A : Aead} {D : DH} (x : Exchange) : (server A D [x]).sock = srvSock := by
  funext s
  rcases s with s | (_ | _ | _ | _ | _) <;> rfl

theorem poll_same {A : Aead} {D : DH} (x : Exchange) (hf : x.fresh.length = 32) {s : (Socket × Script) ⊕ SrvPhase Socket Script} {σ : Side SPhase} (h : SideSame s σ) (as : List IoAns) :
    ∃ σ1 k σ2, (σ1 = σ ∨ σ1 = { σ with closed := true }) ∧ σ1.step (Handshake.serverPoll A D x.server x.fresh) (.poll k as) = some σ2 ∧ σ2.got = σ.got ∧
      SideAfter ((server A D [x]).poll ((server A D [x]).setSock s { (server A D [x]).sock s with answers := as })) σ2 := by
  obtain ⟨h1, h2, h3, h4⟩ := h
  obtain ⟨σ1, hp1, hp2, hp3, hp4, hp5, hp7⟩ : ∃ σ1, (σ1 = σ ∨ σ1 = { σ with closed := true }) ∧ σ1.phase = σ.phase ∧ σ1.inbox = σ.inbox ∧ σ1.sent = σ.sent ∧ σ1.got = σ.got ∧
      σ1.closed = ((srvReader s).closed && (parted (srvReader s).chunks).2.isNone) := by
    cases hc : ((srvReader s).closed && (parted (srvReader s).chunks).2.isNone) with
    | true => exact ⟨{ σ with closed := true }, .inr rfl, rfl, rfl, rfl, rfl, rfl⟩
    | false =>
      refine ⟨σ, .inl rfl, rfl, rfl, rfl, rfl, ?_⟩
      cases hb : σ.closed with
      | false => rfl
      | true =>
        obtain ⟨g1, g2⟩ := h4 hb
        simp [g1, g2] at hc
  obtain ⟨g1, g2, g3⟩ := server_set (A := A) (D := D) x s { (server A D [x]).sock s with answers := as }
  have hm := serverPoll_same (A := A) (D := D) x hf ((server A D [x]).setSock s { (server A D [x]).sock s with answers := as }) σ.phase (g1 _ h1)
  rw [g2, g3, server_sock] at hm
  rw [server_sock]
  dsimp only at hm
  have hfl := flat_parted (srvReader s).chunks
  rw [h3] at hfl
  have e1 : (σ1.closed && decide (σ1.inbox.length ≤ (parted (srvReader s).chunks).1.length)) = ((srvReader s).closed && (parted (srvReader s).chunks).2.isNone) := by
    rw [hp7]
    cases hc : ((srvReader s).closed && (parted (srvReader s).chunks).2.isNone) with
    | false => rfl
    | true =>
      have : (parted (srvReader s).chunks).2 = none := by
        simp only [Bool.and_eq_true, Option.isNone_iff_eq_none] at hc
        exact hc.2
      rw [hp3, hfl, this]
      simp [later]
  have e2 : σ1.inbox.take (parted (srvReader s).chunks).1.length = (parted (srvReader s).chunks).1 := by rw [hp3, hfl, List.take_left]
  have e3 : σ1.inbox.drop (parted (srvReader s).chunks).1.length = later (parted (srvReader s).chunks).2 := by rw [hp3, hfl, List.drop_left]
  refine ⟨σ1, (parted (srvReader s).chunks).1.length, _, hp1, rfl, hp5, ?_⟩
  rw [e1, e2, e3, hp2]
  generalize Handshake.serverPoll A D x.server x.fresh σ.phase ((srvReader s).closed && (parted (srvReader s).chunks).2.isNone) (parted (srvReader s).chunks).1 as = P at hm
  generalize (server A D [x]).poll ((server A D [x]).setSock s { srvSock s with answers := as }) = X at hm
  cases hm with
  | pending m1 m2 m3 m4 =>
    refine .pending ⟨m1, ?_, m4.flat, ?_⟩
    · rw [m2, h2, hp4]
    · intro hb
      dsimp only at hb
      rw [hp7, Bool.and_eq_true, Option.isNone_iff_eq_none] at hb
      exact ⟨m3.trans hb.1, m4.silent hb.2⟩
  | done m1 _ _ _ => exact .done m1
  | failed m1 _ => exact .failed m1
  | panicked m1 _ => exact .panicked m1

/-! ### The server -/

/-- The simulation. -/
inductive PlaceSame {A : Aead} {D : DH} {k : Keys} : LayerServer.Phase A D [k] → Server.Phase → Prop
  | binding : PlaceSame .binding .binding
  | accepting : PlaceSame .accepting .accepting
  | settingUp {v : Visitor} {st : (server A D (v.exchanges [k])).State} {side : Side SPhase} : (v.fresh 0).length = 32 → SideSame st side → side.got = v.script.bytes → PlaceSame (.settingUp v st) (.exchanging v.id (v.fresh 0) side)
  | ended {r : Except Error Unit} : PlaceSame (.ended r) (.ended r)

structure StateSame {A : Aead} {D : DH} {k : Keys} (s : LayerServer.State A D [k]) (t : Server.State) : Prop where
  place : PlaceSame s.phase t.phase
  backlog : t.backlog = s.backlog.map Visitor.id
  served : t.served = s.served.map fun c => (c.visitor.id, some (session c))
  sized : ∀ v ∈ s.backlog, (v.fresh 0).length = 32

theorem step_server_same {A : Aead} {D : DH} {k : Keys} {s s' : LayerServer.State A D [k]} {t : Server.State} (h : StateSame s t) (op : LayerServer.Op) (hv : ∀ v, op = .connect v → (v.fresh 0).length = 32)
    (hs : LayerServer.step A D [k] s op = some s') :
    ∃ ops t', Server.run A D (.encrypted k) t ops = some t' ∧ ops.filterMap outer = [outerL op] ∧ StateSame s' t' := by
  obtain ⟨ph, bl, sv⟩ := s
  obtain ⟨ph', bl', sv'⟩ := t
  obtain ⟨h1, h2, h3, h4⟩ := h
  dsimp only at h1 h2 h3 h4
  subst h2 h3
  cases op with
  | bind r =>
    cases h1 with
    | binding =>
      cases r with
      | error e => cases hs; exact ⟨[.bind (.error e)], _, rfl, rfl, .ended, rfl, rfl, h4⟩
      | ok u => cases hs; exact ⟨[.bind (.ok u)], _, rfl, rfl, .accepting, rfl, rfl, h4⟩
    | _ => cases hs
  | connect v =>
    cases hs
    refine ⟨[.connect v.id], _, rfl, rfl, h1, by simp, rfl, ?_⟩
    intro u hu
    rcases List.mem_append.1 hu with hu | hu
    · exact h4 u hu
    · rw [List.mem_singleton] at hu
      exact hv u (by rw [hu])
  | accept =>
    cases h1 with
    | accepting =>
      cases bl with
      | nil => cases hs
      | cons v vs =>
        cases hs
        refine ⟨[.accept (v.fresh 0), .exchange (.arrive v.script.bytes)], _, rfl, rfl, ?_, rfl, rfl, fun u hu => h4 u (List.mem_cons_of_mem _ hu)⟩
        exact .settingUp (h4 v (List.mem_cons_self)) ⟨.start, rfl, rfl, by intro h; cases h⟩ rfl
    | _ => cases hs
  | acceptFails e =>
    cases h1 with
    | accepting => cases hs; exact ⟨[.acceptFails e], _, rfl, rfl, .ended, rfl, rfl, h4⟩
    | _ => cases hs
  | poll as =>
    cases h1 with
    | @settingUp v st side hf hside hgot =>
      obtain ⟨σ1, n, σ2, p1, p2, p3, p4⟩ := poll_same (A := A) (D := D) { client := v.own 0, server := k, fresh := v.fresh 0 } hf hside as
      -- the side that is closed first
      obtain ⟨pre, hpre, hpre2⟩ : ∃ pre, Server.run A D (.encrypted k) { phase := .exchanging v.id (v.fresh 0) side, backlog := bl.map Visitor.id, served := sv.map fun c => (c.visitor.id, some (session c)) } pre =
          some { phase := .exchanging v.id (v.fresh 0) σ1, backlog := bl.map Visitor.id, served := sv.map fun c => (c.visitor.id, some (session c)) } ∧ pre.filterMap outer = [] := by
        rcases p1 with rfl | rfl
        · exact ⟨[], rfl, rfl⟩
        · refine ⟨[.exchange .close], ?_, rfl⟩
          have := hside.same
          obtain ⟨ph, ib, cl, se, go⟩ := side
          dsimp only at this
          cases this <;> rfl
      have hrun : ∀ t', Server.step A D (.encrypted k) { phase := .exchanging v.id (v.fresh 0) σ1, backlog := bl.map Visitor.id, served := sv.map fun c => (c.visitor.id, some (session c)) } (.exchange (.poll n as)) = some t' →
          Server.run A D (.encrypted k) { phase := .exchanging v.id (v.fresh 0) side, backlog := bl.map Visitor.id, served := sv.map fun c => (c.visitor.id, some (session c)) } (pre ++ [.exchange (.poll n as)]) = some t' ∧
          (pre ++ [Server.Op.exchange (.poll n as)]).filterMap outer = [.poll as] := by
        intro t' ht
        refine ⟨?_, by rw [List.filterMap_append, hpre2]; rfl⟩
        have happ : ∀ (xs ys : List Server.Op) (t : Server.State), Server.run A D (.encrypted k) t (xs ++ ys) = (Server.run A D (.encrypted k) t xs).bind fun t => Server.run A D (.encrypted k) t ys := by
          intro xs
          induction xs with
          | nil => intro ys t; rfl
          | cons x xs ih =>
            intro ys t
            simp only [List.cons_append, Server.run]
            cases Server.step A D (.encrypted k) t x with
            | none => rfl
            | some t => exact ih ys t
        rw [happ, hpre]
        simp only [Option.bind_some, Server.run]
        rw [ht]
        rfl
      have p4' : SideAfter ((server A D (v.exchanges [k])).poll ((server A D (v.exchanges [k])).setSock st { (server A D (v.exchanges [k])).sock st with answers := as })) σ2 := p4
      simp only [LayerServer.step] at hs
      revert p4' hs
      generalize (server A D (v.exchanges [k])).poll ((server A D (v.exchanges [k])).setSock st { (server A D (v.exchanges [k])).sock st with answers := as }) = X
      intro hs' p4
      cases p4 with
      | pending q =>
        cases hs'
        obtain ⟨r1, r2⟩ := hrun { phase := .exchanging v.id (v.fresh 0) σ2, backlog := bl.map Visitor.id, served := sv.map fun c => (c.visitor.id, some (session c)) } (by
          simp only [Server.step]
          rw [p2]
          have := q.same
          obtain ⟨ph, ib, cl, se, go⟩ := σ2
          dsimp only at this
          cases this <;> rfl)
        exact ⟨_, _, r1, r2, .settingUp hf q (p3.trans hgot), rfl, rfl, h4⟩
      | @done w r _ q =>
        cases hs'
        obtain ⟨r1, r2⟩ := hrun { phase := .accepting, backlog := bl.map Visitor.id, served := (sv.map fun c => (c.visitor.id, some (session c))) ++ [(v.id, some { read := r.1, write := w.1 })] } (by
          simp only [Server.step]
          rw [p2]
          dsimp only
          rw [q])
        refine ⟨_, _, r1, r2, .accepting, rfl, ?_, h4⟩
        rw [List.map_append]
        rfl
      | failed q =>
        cases hs'
        obtain ⟨r1, r2⟩ := hrun { phase := .ended (.ok ()), backlog := bl.map Visitor.id, served := sv.map fun c => (c.visitor.id, some (session c)) } (by
          simp only [Server.step]
          rw [p2]
          dsimp only
          rw [q])
        exact ⟨_, _, r1, r2, .ended, rfl, rfl, h4⟩
      | panicked q =>
        cases hs'
        obtain ⟨r1, r2⟩ := hrun { phase := .ended (.error .invalidState), backlog := bl.map Visitor.id, served := sv.map fun c => (c.visitor.id, some (session c)) } (by
          simp only [Server.step]
          rw [p2]
          dsimp only
          rw [q])
        exact ⟨_, _, r1, r2, .ended, rfl, rfl, h4⟩
    | _ => cases hs

theorem run_server_same {A : Aead} {D : DH} {k : Keys} : ∀ (ops : List LayerServer.Op) {s s' : LayerServer.State A D [k]} {t : Server.State}, StateSame s t → (∀ v ∈ visitors ops, (v.fresh 0).length = 32) →
    LayerServer.run A D [k] s ops = some s' → ∃ ops' t', Server.run A D (.encrypted k) t ops' = some t' ∧ ops'.filterMap outer = ops.map outerL ∧ StateSame s' t'
  | [], s, s', t, h, _, hr => by cases hr; exact ⟨[], t, rfl, rfl, h⟩
  | op :: ops, s, s', t, h, hv, hr => by
    simp only [LayerServer.run] at hr
    cases hs : LayerServer.step A D [k] s op with
    | none => rw [hs] at hr; cases hr
    | some s1 =>
      rw [hs] at hr
      obtain ⟨o1, t1, e1, e2, e3⟩ := step_server_same h op (by
        intro v hv'
        subst hv'
        exact hv v (by simp [visitors])) hs
      obtain ⟨o2, t2, e4, e5, e6⟩ := run_server_same ops e3 (by
        intro v hv'
        refine hv v ?_
        cases op <;> simp only [visitors, List.filterMap_cons] at hv' ⊢ <;> first | exact hv' | exact List.mem_cons_of_mem _ hv') hr
      refine ⟨o1 ++ o2, t2, ?_, ?_, e6⟩
      · have happ : ∀ (xs ys : List Server.Op) (t : Server.State), Server.run A D (.encrypted k) t (xs ++ ys) = (Server.run A D (.encrypted k) t xs).bind fun t => Server.run A D (.encrypted k) t ys := by
          intro xs
          induction xs with
          | nil => intro ys t; rfl
          | cons x xs ih =>
            intro ys t
            simp only [List.cons_append, Server.run]
            cases Server.step A D (.encrypted k) t x with
            | none => rfl
            | some t => exact ih ys t
        rw [happ, e1]
        exact e4
      · rw [List.filterMap_append, e2, e5]
        rfl

end Bromine.Layers
