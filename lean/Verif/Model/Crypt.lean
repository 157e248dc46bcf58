import Verif.Model.Event
/-
src/protocol/encrypted/crypt_handling.rs:18-99 (`CipherBox`) and src/protocol/encrypted/mod.rs:133-163
(`EncryptedPackage`).

The cipher (crate chacha20poly1305) is a parameter `Aead`; its laws are those of ChaCha20-Poly1305 as functions, not
cryptographic assumptions.
-/
namespace Bromine

/-- An authenticated cipher: `ChaCha20Poly1305::encrypt` and `decrypt` without associated data. -/
structure Aead where
  enc : (key nonce plain : Bytes) → Option Bytes
  dec : (key nonce cipher : Bytes) → Option Bytes
  /-- decryption succeeds exactly on what encryption produces (the tag is a function of key, nonce and text) -/
  dec_iff : ∀ k n c p, dec k n c = some p ↔ enc k n p = some c
  /-- the tag has 16 bytes -/
  len : ∀ k n p c, enc k n p = some c → c.length = p.length + 16
  /-- the plaintext limit of ChaCha20-Poly1305 is 2^38 - 64 bytes; shorter texts can be encrypted -/
  total : ∀ k n p, p.length < 2 ^ 38 - 64 → (enc k n p).isSome

/-- `nonce_from_number`, crypt_handling.rs:92-99: the 8 bytes of the number twice, cut to 12. -/
def nonceFromNumber (number : UInt64) : Bytes := (putU64 number ++ putU64 number).take 12

/-- An encryption that has been done: key, nonce, plaintext. -/
structure Encryption where
  key : Bytes
  nonce : Bytes
  plain : Bytes
deriving DecidableEq, Repr

/-- The cipher of the write half: `CipherBox`, crypt_handling.rs:23-27, with the counter `en_count`. The two
`CipherBox`es of a connection share their counters (mod.rs:68-71 clones the `Arc`s), but only the write half encrypts and
only the read half decrypts, so each counter is used by one half only. `log` is a history variable. -/
structure Encryptor where
  key : Bytes
  count : UInt64 := 0
  log : List Encryption := []
deriving DecidableEq, Repr

/-- The cipher of the read half, with the counter `de_count`. -/
structure Decryptor where
  key : Bytes
  count : UInt64 := 0
deriving DecidableEq, Repr

/-- `CipherBox::encrypt`, crypt_handling.rs:43-48 with `en_nonce`, 77-81 (`fetch_add` wraps around). The counter goes
up even if the encryption fails. -/
def Encryptor.encrypt (A : Aead) (x : Encryptor) (data : Bytes) : Except IoErr Bytes × Encryptor :=
  let nonce := nonceFromNumber x.count
  let x' : Encryptor := { x with count := x.count + 1, log := x.log ++ [{ key := x.key, nonce := nonce, plain := data }] }
  match A.enc x.key nonce data with
  | some c => (.ok c, x')
  | none => (.error .invalidData, x')

/-- `CipherBox::decrypt`, crypt_handling.rs:52-57 with `de_nonce`, 83-87. -/
def Decryptor.decrypt (A : Aead) (x : Decryptor) (data : Bytes) : Except IoErr Bytes × Decryptor :=
  let x' : Decryptor := { x with count := x.count + 1 }
  match A.dec x.key (nonceFromNumber x.count) data with
  | some p => (.ok p, x')
  | none => (.error .invalidData, x')

/-- `EncryptedPackage::into_bytes`, mod.rs:142-148: `len as u32` is `UInt32.ofNat`. -/
def packageBytes (c : Bytes) : Bytes := putU32 (UInt32.ofNat c.length) ++ c

/-- `EncryptedPackage::from_async_read`, mod.rs:150-158: `read_u32`, then `read_exact`. The allocation of `length` bytes is at
most 4 GiB and does not panic. -/
def readPackage {σ : Type} (S : Source σ) (s : σ) : Outcome (Bytes × σ) := do
  let (l, s) ← S.readInt 4 s
  S.readExact (beVal l) s

/-- A toy cipher, to show that the laws can be met and to compute examples: the plaintext is sent as it is, the tag is the nonce and
a checksum of key and plaintext. -/
def toyTag (k n p : Bytes) : Bytes :=
  (n ++ List.replicate 12 0).take 12 ++ beBytes 4 ((k ++ [0] ++ p).foldl (fun (h : Nat) (b : UInt8) => (h * 31 + b.toNat + 7) % 4294967296) 17)

theorem length_toyTag (k n p : Bytes) : (toyTag k n p).length = 16 := by
  have : ∀ m x, (beBytes m x).length = m := by
    intro m x
    induction m with
    | zero => rfl
    | succ m ih => simp [beBytes, ih]
  simp [toyTag, this]

def toyAead : Aead where
  enc k n p := some (toyTag k n p ++ p)
  dec k n c := if c.take 16 = toyTag k n (c.drop 16) then some (c.drop 16) else none
  dec_iff k n c p := by
    have hl := length_toyTag k n p
    simp only [Option.some.injEq]
    constructor
    · intro h
      split at h
      · rename_i ht
        injection h with h
        rw [← h, ← ht, List.take_append_drop]
      · cases h
    · intro h
      subst h
      have hd : (toyTag k n p ++ p).drop 16 = p := by
        rw [List.drop_append_of_le_length (by omega), List.drop_of_length_le (by omega), List.nil_append]
      rw [hd, List.take_append_of_le_length (by omega), List.take_of_length_le (by omega), if_pos rfl]
  len k n p c h := by
    injection h with h
    subst h
    rw [List.length_append, length_toyTag]
    omega
  total k n p _ := rfl

end Bromine
