import Verif.Crypt.Model
/-!
# What the encryption properties talk about
-/
namespace Verif.Crypt.Spec
open Verif

/-- What is assumed of ciphers, hashes and key derivation: sizes, and that decrypting a block undoes encrypting it.
Nothing is assumed about security, in particular no hash is assumed to be injective. -/
structure Lawful (P : Prims) : Prop where
  enc_length : ∀ a k b, k.length = a.keySize → b.length = a.blockSize → (P.enc a k b).length = a.blockSize
  dec_length : ∀ a k b, k.length = a.keySize → b.length = a.blockSize → (P.dec a k b).length = a.blockSize
  dec_enc : ∀ a k b, k.length = a.keySize → b.length = a.blockSize → P.dec a k (P.enc a k b) = b
  sha256_length : ∀ x, (P.sha256 x).length = 32
  sha512_length : ∀ x, (P.sha512 x).length = 64
  kdf_length : ∀ p s, (P.kdf p s).length = 80

/-- Two different messages with the same SHA-512. -/
def Collision (P : Prims) (x y : Str) : Prop := x ≠ y ∧ P.sha512 x = P.sha512 y

/-- The credentials amount to `key` for a file (or user record) with this salt: the passphrase gives it, no key being
cached for this salt, or it is cached for this salt. -/
def Credentials (P : Prims) (pass : Str) (cached : Option Str) (cachedSalt salt key : Str) : Prop :=
  (pass ≠ [] ∧ key = P.kdf pass salt ∧ (cached = none ∨ cachedSalt ≠ salt)) ∨ (cached = some key ∧ cachedSalt = salt)

/-- The salt a file holds for a user, by its place in the file: at byte 16 of a single-user file, at byte 32 of the
first 184-byte record that starts with the hash of the user's name, and in the first record if there is none. -/
def saltOf (P : Prims) (f user : Str) : Option Str :=
  match parseSigned ((f.drop 12).take 4) with
  | none => none
  | some n =>
    if n = 0 then some ((f.drop 16).take 32)
    else
      let i := ((List.range n.toNat).find? (fun i => (f.drop (16 + 184 * i)).take 32 == P.sha256 user)).getD 0
      some ((f.drop (16 + 184 * i + 32)).take 32)

/-- Toy primitives satisfying the laws: block "ciphers" that add the first key byte to every byte, "hashes" that
truncate or pad, a "key derivation" that repeats the first byte of the passphrase. -/
def fit (n : Nat) (s : Str) : Str := (s ++ List.replicate n 0).take n

def toy : Prims where
  enc _ k b := b.map (fun x => x + k.headD 0)
  dec _ k b := b.map (fun x => x - k.headD 0)
  sha256 := fit 32
  sha512 := fit 64
  kdf p _ := List.replicate 80 (p.headD 0)

theorem fit_length (n : Nat) (s : Str) : (fit n s).length = n := by simp [fit]

theorem toy_lawful : Lawful toy where
  enc_length a k b _ hb := by simpa [toy] using hb
  dec_length a k b _ hb := by simpa [toy] using hb
  dec_enc a k b _ _ := by
    simp only [toy, List.map_map]
    have : ((fun x => x - k.headD 0) ∘ fun x => x + k.headD 0) = id := by
      funext x; simp
    rw [this]; simp
  sha256_length x := fit_length 32 x
  sha512_length x := fit_length 64 x
  kdf_length p s := by simp [toy]

end Verif.Crypt.Spec
