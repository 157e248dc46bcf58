import Verif.Lemmas.ServerOne
/-
A server whose listener has no encrypted layer (Model/LayerServer.lean) is the plain server of Model/Server.lean.
-/
namespace Bromine.Layers
open Bromine CryptIO LayerServer Spec
open Bromine.Handshake (DH Keys)

theorem server_run_append {A : Aead} {D : DH} (l : Server.Listener) : ∀ (xs ys : List Server.Op) (t : Server.State), Server.run A D l t (xs ++ ys) = (Server.run A D l t xs).bind fun t => Server.run A D l t ys
  | [], ys, t => rfl
  | x :: xs, ys, t => by
    simp only [List.cons_append, Server.run]
    cases Server.step A D l t x with
    | none => rfl
    | some t => exact server_run_append l xs ys t

theorem layerServer_run_append {A : Aead} {D : DH} (keys : List Keys) : ∀ (xs ys : List LayerServer.Op) (t : LayerServer.State A D keys), LayerServer.run A D keys t (xs ++ ys) = (LayerServer.run A D keys t xs).bind fun t => LayerServer.run A D keys t ys
  | [], ys, t => rfl
  | x :: xs, ys, t => by
    simp only [List.cons_append, LayerServer.run]
    cases LayerServer.step A D keys t x with
    | none => rfl
    | some t => exact layerServer_run_append keys xs ys t

theorem step_plain {A : Aead} {D : DH} {s s' : LayerServer.State A D []} {t : Server.State} (h : PlainState s t) (op : LayerServer.Op) (hs : LayerServer.step A D [] s op = some s') :
    ∃ ops t', Server.run A D .plain t ops = some t' ∧ ops.filterMap outer = [outerL op].filter Outer.matters ∧ PlainState s' t' := by
  obtain ⟨ph, bl, sv⟩ := s
  obtain ⟨ph', bl', sv'⟩ := t
  obtain ⟨h1, h2, h3⟩ := h
  dsimp only at h1 h2 h3
  subst h2 h3
  cases op with
  | bind r =>
    cases ph with
    | binding =>
      cases h1
      cases r with
      | error e => cases hs; exact ⟨[.bind (.error e)], _, rfl, rfl, rfl, rfl, rfl⟩
      | ok u => cases hs; exact ⟨[.bind (.ok u)], _, rfl, rfl, rfl, rfl, rfl⟩
    | _ => cases hs
  | connect v =>
    cases hs
    exact ⟨[.connect v.id], _, rfl, rfl, h1, by simp, rfl⟩
  | accept =>
    cases ph with
    | accepting =>
      cases h1
      cases bl with
      | nil => cases hs
      | cons v vs =>
        cases hs
        refine ⟨[.accept []], _, rfl, rfl, rfl, rfl, ?_⟩
        simp [guest]
    | _ => cases hs
  | acceptFails e =>
    cases ph with
    | accepting => cases h1; cases hs; exact ⟨[.acceptFails e], _, rfl, rfl, rfl, rfl, rfl⟩
    | _ => cases hs
  | poll as =>
    cases ph with
    | settingUp v st =>
      cases h1
      refine ⟨[], _, rfl, rfl, ?_⟩
      cases hs
      refine ⟨rfl, rfl, ?_⟩
      simp [guest]
    | _ => cases hs

theorem run_plain {A : Aead} {D : DH} : ∀ (ops : List LayerServer.Op) {s s' : LayerServer.State A D []} {t : Server.State}, PlainState s t → LayerServer.run A D [] s ops = some s' →
    ∃ ops' t', Server.run A D .plain t ops' = some t' ∧ ops'.filterMap outer = (ops.map outerL).filter Outer.matters ∧ PlainState s' t'
  | [], s, s', t, h, hr => by cases hr; exact ⟨[], t, rfl, rfl, h⟩
  | op :: ops, s, s', t, h, hr => by
    simp only [LayerServer.run] at hr
    cases hs : LayerServer.step A D [] s op with
    | none => rw [hs] at hr; cases hr
    | some s1 =>
      rw [hs] at hr
      obtain ⟨o1, t1, e1, e2, e3⟩ := step_plain h op hs
      obtain ⟨o2, t2, e4, e5, e6⟩ := run_plain ops e3 hr
      refine ⟨o1 ++ o2, t2, ?_, ?_, e6⟩
      · rw [server_run_append, e1]
        exact e4
      · rw [List.filterMap_append, e2, e5, List.map_cons, ← List.filter_append]
        rfl

/-- The other direction; between its steps the layered server is in no set-up. -/
theorem step_plain' {A : Aead} {D : DH} {s : LayerServer.State A D []} {t t' : Server.State} (h : PlainState s t) (hn : guest s = []) (op : Server.Op) (hs : Server.step A D .plain t op = some t') :
    ∃ ops s', LayerServer.run A D [] s ops = some s' ∧ (ops.map outerL).filter Outer.matters = [op].filterMap outer ∧ PlainState s' t' ∧ guest s' = [] := by
  obtain ⟨ph, bl, sv⟩ := s
  obtain ⟨ph', bl', sv'⟩ := t
  obtain ⟨h1, h2, h3⟩ := h
  dsimp only at h1 h2 h3 hn
  subst h2 h3
  cases op with
  | bind r =>
    cases ph with
    | binding =>
      cases h1
      cases r with
      | error e => cases hs; exact ⟨[.bind (.error e)], _, rfl, rfl, ⟨rfl, rfl, rfl⟩, rfl⟩
      | ok u => cases hs; exact ⟨[.bind (.ok u)], _, rfl, rfl, ⟨rfl, rfl, rfl⟩, rfl⟩
    | _ => cases h1; cases hs
  | connect id =>
    cases hs
    exact ⟨[.connect { id := id, script := { chunks := [], closed := false }, own := fun _ => { secret := [] }, fresh := fun _ => [] }], _, rfl, rfl, ⟨h1, by simp, rfl⟩, hn⟩
  | accept f =>
    cases ph with
    | accepting =>
      cases h1
      cases bl with
      | nil => cases hs
      | cons v vs =>
        cases hs
        refine ⟨[.accept, .poll []], _, rfl, rfl, ⟨rfl, rfl, ?_⟩, rfl⟩
        simp [guest]
    | settingUp v st => cases hn
    | _ => cases h1; cases hs
  | acceptFails e =>
    cases ph with
    | accepting => cases h1; cases hs; exact ⟨[.acceptFails e], _, rfl, rfl, ⟨rfl, rfl, rfl⟩, rfl⟩
    | settingUp v st => cases hn
    | _ => cases h1; cases hs
  | exchange o =>
    cases ph with
    | settingUp v st => cases hn
    | _ => cases h1; cases hs

theorem run_plain' {A : Aead} {D : DH} : ∀ (ops : List Server.Op) {s : LayerServer.State A D []} {t t' : Server.State}, PlainState s t → guest s = [] → Server.run A D .plain t ops = some t' →
    ∃ ops' s', LayerServer.run A D [] s ops' = some s' ∧ (ops'.map outerL).filter Outer.matters = ops.filterMap outer ∧ PlainState s' t' ∧ guest s' = []
  | [], s, t, t', h, hn, hr => by cases hr; exact ⟨[], s, rfl, rfl, h, hn⟩
  | op :: ops, s, t, t', h, hn, hr => by
    simp only [Server.run] at hr
    cases hs : Server.step A D .plain t op with
    | none => rw [hs] at hr; cases hr
    | some t1 =>
      rw [hs] at hr
      obtain ⟨o1, s1, e1, e2, e3, e3'⟩ := step_plain' h hn op hs
      obtain ⟨o2, s2, e4, e5, e6, e7⟩ := run_plain' ops e3 e3' hr
      refine ⟨o1 ++ o2, s2, ?_, ?_, e6, e7⟩
      · rw [layerServer_run_append, e1]
        exact e4
      · rw [List.map_append, List.filter_append, e2, e5, ← List.filterMap_append]
        rfl

end Bromine.Layers
