import Verif.Otp.Model
/-!
# What the statements about two factor codes use besides the model
-/
namespace Verif.Otp.Spec
open Verif

/-- the letters of base32 (RFC 4648) -/
def letter (n : Nat) : UInt8 := UInt8.ofNat (if n < 26 then 65 + n else 24 + n)

/-- base32 without padding: the bits of the bytes, five at a time, filled up with zeros -/
def digits : Str → List Nat
  | [] => []
  | [a] => [a.toNat / 8, a.toNat % 8 * 4]
  | [a, b] => [a.toNat / 8, a.toNat % 8 * 4 + b.toNat / 64, b.toNat / 2 % 32, b.toNat % 2 * 16]
  | [a, b, c] => [a.toNat / 8, a.toNat % 8 * 4 + b.toNat / 64, b.toNat / 2 % 32, b.toNat % 2 * 16 + c.toNat / 16, c.toNat % 16 * 2]
  | [a, b, c, d] => [a.toNat / 8, a.toNat % 8 * 4 + b.toNat / 64, b.toNat / 2 % 32, b.toNat % 2 * 16 + c.toNat / 16,
      c.toNat % 16 * 2 + d.toNat / 128, d.toNat / 4 % 32, d.toNat % 4 * 8]
  | a :: b :: c :: d :: e :: s => [a.toNat / 8, a.toNat % 8 * 4 + b.toNat / 64, b.toNat / 2 % 32, b.toNat % 2 * 16 + c.toNat / 16,
      c.toNat % 16 * 2 + d.toNat / 128, d.toNat / 4 % 32, d.toNat % 4 * 8 + e.toNat / 32, e.toNat % 32] ++ digits s

def upper (c : UInt8) : UInt8 := if 97 ≤ c.toNat ∧ c.toNat ≤ 122 then c - 32 else c

/-- ways to write a key: base32 in letters of either case, with or without the padding -/
def Spells (s key : Str) : Prop :=
  ∃ x j, s = x ++ List.replicate j 61 ∧ x.map upper = (digits key).map letter ∧ j ≤ (8 - x.length % 8) % 8

/-- `strings.ToUpper` does to ASCII what it should -/
def Upper (v : Env) : Prop := ∀ s : Str, (∀ c ∈ s, c.toNat < 128) → v.toUpper s = s.map upper

/-- the code of RFC 6238 with the parameters everybody uses: SHA1, 30 seconds, six digits. `unix` are seconds since 1970. -/
def totp (hmac : Str → Str → Str) (key : Str) (unix : Nat) : Str :=
  let mac := hmac key ((List.range 8).map fun i => UInt8.ofNat (unix / 30 / 256 ^ (7 - i)))
  let o := (mac.getLast?.getD 0).toNat % 16
  let n := (((mac.drop o).take 4).foldl (fun n b => n * 256 + b.toNat) 0) % 2147483648 % 1000000
  (List.range 6).map fun i => UInt8.ofNat (48 + n / 10 ^ (5 - i) % 10)

end Verif.Otp.Spec
