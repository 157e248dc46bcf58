import Verif.Props.Stack
import Verif.Props.Handshake
/-
C60: from the key exchange to the events.
-/
namespace Bromine.Props
open Bromine.Spec Bromine.CryptIO Bromine.Handshake

theorem NewSession.write {key : Bytes} {st : CryptStream} (h : NewSession key st) : st.write = { enc := { key := key, log := st.write.enc.log } } := by
  obtain ⟨-, -, -, -, h1, h2, h3, h4, h5, h6, h7, h8⟩ := h
  rcases st with ⟨r, ⟨⟨k, c, l⟩, i, ci, b, fw, ff, fs⟩⟩
  simp only at h1 h2 h3 h4 h5 h6 h7 h8
  subst h1 h2 h3 h4 h5 h6 h7 h8
  rfl

theorem NewSession.read {key : Bytes} {st : CryptStream} (h : NewSession key st) : st.read = { dec := { key := key } } := by
  obtain ⟨h1, h2, h3, h4, -⟩ := h
  rcases st with ⟨⟨⟨k, c⟩, rem, fut⟩, w⟩
  simp only at h1 h2 h3 h4
  subst h1 h2 h3 h4
  rfl

/-- After a key exchange both directions are new encrypted links. -/
theorem session_links {A : Aead} {D : DH} {sk ck : Keys} {fresh : Bytes} (hf : fresh.length = 32) {ops : List PairOp} {p : Pair}
    (hr : Pair.run A D sk ck fresh (Pair.init D ck) ops = some p) {s c : CryptStream} (hs : p.server.phase = .done s) (hc : p.client.phase = .done c)
    (checks : Bool) :
    Link.halves A s.write c.read checks = (Link.Kind.encrypted A fresh s.write.enc.log).link checks ∧
    Link.halves A c.write s.read checks = (Link.Kind.encrypted A fresh c.write.enc.log).link checks := by
  obtain ⟨h1, h2, -, -⟩ := C41_agreement A D sk ck fresh hf ops p hr s c hs hc
  refine ⟨?_, ?_⟩
  · conv => lhs; rw [NewSession.write h1, NewSession.read h2]
    rfl
  · conv => lhs; rw [NewSession.write h2, NewSession.read h1]
    rfl

/-- **C60.** However a key exchange went that both sides have completed: what the server then emits with the write half it got is what the client reads with the
read half it got, and the other way round; and neither direction can get stuck by itself. -/
theorem C60_session (A : Aead) (D : DH) (sk ck : Keys) (fresh : Bytes) (hf : fresh.length = 32) (ops : List PairOp) (p : Pair)
    (hr : Pair.run A D sk ck fresh (Pair.init D ck) ops = some p) (s c : CryptStream) (hs : p.server.phase = .done s) (hc : p.client.phase = .done c)
    (checks : Bool) :
    (Link.halves A s.write c.read checks).Faithful Small ∧ (Link.halves A c.write s.read checks).Faithful Small ∧
    (Link.halves A s.write c.read checks).Live Small ∧ (Link.halves A c.write s.read checks).Live Small := by
  obtain ⟨h1, h2⟩ := session_links hf hr hs hc checks
  rw [h1, h2]
  exact ⟨C57_faithful (.encrypted A fresh _) checks, C57_faithful (.encrypted A fresh _) checks, C58_link_live (.encrypted A fresh _) checks,
    C58_link_live (.encrypted A fresh _) checks⟩

/-- **C60, nothing is left over and nothing is swallowed.** When both sides have completed the key exchange, the bytes in the receive buffer of a side are exactly
the bytes that the other side sent after it had completed: no byte of the exchange is left, and no byte of the session is consumed by the exchange, although the
server may send events before the client has finished. So the first byte that a side reads in the session is the first byte of the session that the other side sent. -/
theorem C60_clean (A : Aead) (D : DH) (sk ck : Keys) (fresh : Bytes) (hf : fresh.length = 32) (ops : List PairOp) (p : Pair)
    (hr : Pair.run A D sk ck fresh (Pair.init D ck) ops = some p) (s c : CryptStream) (hs : p.server.phase = .done s) (hc : p.client.phase = .done c) :
    p.server.inbox = p.clientMore ∧ p.client.inbox = p.serverMore :=
  (C41_agreement A D sk ck fresh hf ops p hr s c hs hc).2.2

/-- A key exchange in which the server sends three bytes of the session before the client has completed. -/
example : (Pair.run toyAead toyDH exServerKeys exClientKeys exFresh (Pair.init toyDH exClientKeys) (exOps ++ [.moreServer [1, 2, 3], .client 100 []])).map
    (fun p => (match p.client.phase with | .done _ => true | _ => false, p.client.inbox, p.serverMore)) = some (true, [1, 2, 3], [1, 2, 3]) := by decide +kernel

end Bromine.Props
