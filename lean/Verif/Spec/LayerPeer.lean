import Verif.Spec.LayerExchange
/-
Setting up encrypted layers with an arbitrary peer: what a side has heard, layer by layer. `wire` is all that its socket has received or will receive.

A layer reads from the layers inside it. If there are none, it reads what the socket has received, without gaps. If there are some, bytes can get lost between the two (`read_u32` forgets what a stream that is not ready has put into its
buffer, and an encrypted stream does so, see C58), so it has read a subsequence.
-/
namespace Bromine.Spec
open Layers (Layer Exchange WState RState)
open Bromine.Handshake (DH)

/-- Of the bytes `came`, the bytes `read` have been read by a layer that has the layers `inside` inside it. -/
def Taken (inside : List Exchange) (came read : Bytes) : Prop := read.Sublist came ∧ (inside = [] → read = came)

/-- The package that `bs` begins with (4 bytes for a length, and so many bytes) does not decipher as number `i`. -/
def NotPackage (A : Aead) (key : Bytes) (i : Nat) (bs : Bytes) : Prop :=
  ∃ lb c rest, bs = lb ++ c ++ rest ∧ BigEndian 4 c.length lb ∧ ∀ nonce, Nonce i nonce → A.dec key nonce c = none

/-- A client has set up these layers, the outermost first, with the keys `sessions`, and `plain` is what it has deciphered (without a layer: read) since. In each layer it has heard, through the layers inside: a key of 32 bytes that it trusts;
packages under the secret agreed with that key, of which the first 32 bytes are the key of the session; and packages under that key. -/
def ClientHears (A : Aead) (D : DH) (wire : Bytes) : List Exchange → List Bytes → Bytes → Prop
  | [], [], plain => plain <+: wire
  | x :: xs, session :: sessions, plain => ∃ key came rest read pkgs pkgs' part plains plains',
      ClientHears A D wire xs sessions (key ++ came ++ rest) ∧ key.length = 32 ∧ Trusts D x.client key ∧
      Taken xs came read ∧ read = pkgs ++ pkgs' ++ part ∧
      Packages A (D.dh x.client.secret key) 0 plains pkgs ∧ session.length = 32 ∧ session <+: plains.flatten ∧
      Packages A session 0 plains' pkgs' ∧ plains.flatten ++ plains'.flatten = session ++ plain
  | _, _, _ => False

/-- A server has set up these layers with peers that have the public keys `keys`. In each layer it has heard such a key, of 32 bytes, and trusts it; and then packages under the key that it made. -/
def ServerHears (A : Aead) (D : DH) (wire : Bytes) : List Exchange → List Bytes → Bytes → Prop
  | [], [], plain => plain <+: wire
  | x :: xs, key :: keys, plain => ∃ came rest read pkgs part plains,
      ServerHears A D wire xs keys (key ++ came ++ rest) ∧ key.length = 32 ∧ Trusts D x.server key ∧
      Taken xs came read ∧ read = pkgs ++ part ∧ Packages A x.fresh 0 plains pkgs ∧ plains.flatten = plain
  | _, _, _ => False

/-- The client has received, in one of its layers, a package that does not decipher: under the secret that was agreed, before the key of the session was complete, or under that key. -/
def ClientUndecipherable (A : Aead) (D : DH) (wire : Bytes) (xs : List Exchange) : Prop :=
  ∃ ys x zs sessions key came rest read, xs = ys ++ x :: zs ∧ ClientHears A D wire zs sessions (key ++ came ++ rest) ∧ key.length = 32 ∧ Trusts D x.client key ∧ Taken zs came read ∧
    ∃ pkgs plains part, Packages A (D.dh x.client.secret key) 0 plains pkgs ∧
      ((read = pkgs ++ part ∧ plains.flatten.length < 32 ∧ NotPackage A (D.dh x.client.secret key) plains.length part) ∨
       (ys ≠ [] ∧ ∃ session pkgs' plains', session.length = 32 ∧ session <+: plains.flatten ∧ read = pkgs ++ pkgs' ++ part ∧ Packages A session 0 plains' pkgs' ∧ NotPackage A session plains'.length part))

/-- The server has received, in a layer that is set up (so there is a layer around it), a package that does not decipher. -/
def ServerUndecipherable (A : Aead) (D : DH) (wire : Bytes) (xs : List Exchange) : Prop :=
  ∃ ys x zs keys key came rest read, xs = ys ++ x :: zs ∧ ys ≠ [] ∧ ServerHears A D wire zs keys (key ++ came ++ rest) ∧ key.length = 32 ∧ Trusts D x.server key ∧ Taken zs came read ∧
    ∃ pkgs plains part, read = pkgs ++ part ∧ Packages A x.fresh 0 plains pkgs ∧ NotPackage A x.fresh plains.length part

/-- The client has received, in some layer, the key `key` of somebody it does not trust. -/
def ClientStranger (A : Aead) (D : DH) (wire : Bytes) (xs : List Exchange) (key : Bytes) : Prop :=
  ∃ ys x zs sessions rest, xs = ys ++ x :: zs ∧ ClientHears A D wire zs sessions (key ++ rest) ∧ key.length = 32 ∧ ¬ Trusts D x.client key

/-- The same for a server. -/
def ServerStranger (A : Aead) (D : DH) (wire : Bytes) (xs : List Exchange) (key : Bytes) : Prop :=
  ∃ ys x zs keys rest, xs = ys ++ x :: zs ∧ ServerHears A D wire zs keys (key ++ rest) ∧ key.length = 32 ∧ ¬ Trusts D x.server key

/-- In the layer `x`, with the layers `zs` inside it, the client has received a key that it trusts. -/
def ClientFriend (A : Aead) (D : DH) (wire : Bytes) (x : Exchange) (zs : List Exchange) : Prop :=
  ∃ sessions key rest, ClientHears A D wire zs sessions (key ++ rest) ∧ key.length = 32 ∧ Trusts D x.client key

/-- The same for a server. -/
def ServerFriend (A : Aead) (D : DH) (wire : Bytes) (x : Exchange) (zs : List Exchange) : Prop :=
  ∃ keys key rest, ServerHears A D wire zs keys (key ++ rest) ∧ key.length = 32 ∧ Trusts D x.server key

/-- The exchanges, with these as the keys that the server made. -/
def withSessions (xs : List Exchange) (sessions : List Bytes) : List Exchange := List.zipWith (fun x s => { x with fresh := s }) xs sessions

/-- `bs` is all that the server sends to peers with these public keys: for each layer, through all layers inside, its own, and then the key of the session in a package with the secret agreed with the peer. -/
def ServerAnswers (A : Aead) (D : DH) : List Exchange → List Bytes → Bytes → Prop
  | [], [], bs => bs = []
  | x :: xs, peer :: peers, bs => ∃ before pub pkg key, ServerAnswers A D xs peers before ∧ Nested A (serverLayers xs) 0 (D.pub x.server.secret) pub ∧ Package A (D.dh x.server.secret peer) 0 x.fresh pkg ∧
      Nested A (serverLayers xs) 1 pkg key ∧ bs = before ++ pub ++ key
  | _, _, _ => False

/-- The read halves have these keys, the outermost first, and `unread` is what the outermost has deciphered and nobody has read. -/
def ReadsWith (unread : Bytes) : (n : Nat) → List Bytes → RState n → Prop
  | 0, [], _ => unread = []
  | n + 1, session :: sessions, (rs, t) => rs.dec.key = session ∧ rs.remaining = unread ∧ ∃ unread', ReadsWith unread' n sessions t
  | _, _, _ => False

end Bromine.Spec
