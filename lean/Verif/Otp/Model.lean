import Verif.Go.Query
import Verif.Go.Fields
/-!
# Model of two factor codes (blobformat/blob.go:54-77, blobs.go:393-414)

with the parts of `github.com/pquerna/otp` v1.3.0 that bpass uses (`otp.NewKeyFromURL`, `Key.Type`, `Key.Secret`,
`totp.GenerateCode`) and of Go's `encoding/base32`. HMAC-SHA1 is an argument, and so is `strings.ToUpper`.
-/
namespace Verif.Otp
open Verif

/-! ## base32 -/

/-- `decodeMap` of `base32.StdEncoding` -/
def digit (c : UInt8) : Option Nat :=
  if 65 ≤ c.toNat ∧ c.toNat ≤ 90 then some (c.toNat - 65)
  else if 50 ≤ c.toNat ∧ c.toNat ≤ 55 then some (c.toNat - 24)
  else none

/-- the bytes of a group of eight (or, at the end, fewer) digits; shifts and ors of numbers below 32 written as arithmetic.
Like the `switch` of `decode`, missing digits count as zero and make the last byte go. -/
def group (d : List Nat) : Str :=
  let g := fun i => d.getD i 0
  ([g 0 * 8 + g 1 / 4, g 1 % 4 * 64 + g 2 * 2 + g 3 / 16, g 3 % 16 * 16 + g 4 / 2, g 4 % 2 * 128 + g 5 * 4 + g 6 / 8,
    g 6 % 8 * 32 + g 7].take (d.length * 5 / 8)).map UInt8.ofNat

/-- what the inner loop of `decode` finds: eight digits, or the end with fewer digits -/
inductive Quantum where
  | full (d : List Nat) (rest : Str)
  | last (d : List Nat)
  | bad

/-- the inner loop of `decode` for padded input; `d` are the digits read so far (fewer than eight, `fuel` is what is missing) -/
def quantum : Nat → List Nat → Str → Quantum
  | 0, d, s => .full d s
  | _ + 1, _, [] => .bad
  | fuel + 1, d, c :: s =>
    if c = 61 ∧ d.length ≥ 2 ∧ s.length < 8 then
      if s.length + d.length < 7 then .bad
      else if (s.take (7 - d.length)).any (· ≠ 61) then .bad
      else if d.length = 1 ∨ d.length = 3 ∨ d.length = 6 then .bad
      else .last d
    else
      match digit c with
      | none => .bad
      | some n => quantum fuel (d ++ [n]) s

/-- the outer loop of `decode`; `none`: an error. Every turn but the last takes eight characters. -/
def decodeLoop : Nat → Str → Option Str
  | 0, _ => some []
  | fuel + 1, s =>
    if s = [] then some []
    else
      match quantum 8 [] s with
      | .bad => none
      | .last d => some (group d)
      | .full d rest => (decodeLoop fuel rest).map (group d ++ ·)

/-- `base32.StdEncoding.DecodeString`: line ends are dropped first -/
def decode32 (s : Str) : Option Str :=
  let s := s.filter fun c => c ≠ 10 ∧ c ≠ 13
  decodeLoop (s.length + 1) s

/-! ## codes -/

/-- the counter as eight bytes, big endian -/
def be64 (n : Nat) : Str := (List.range 8).map fun i => UInt8.ofNat (n / 256 ^ (7 - i))

/-- the number that is cut out of the MAC (hotp.GenerateCodeCustom) -/
def truncate (sum : Str) : Nat :=
  let off := ((sum.getLast?.getD 0).toNat) % 16
  let b := fun i => (sum.getD (off + i) 0).toNat
  b 0 % 128 * 16777216 + b 1 * 65536 + b 2 * 256 + b 3

/-- `fmt.Sprintf("%06d", n)` of a number below a million -/
def sixDigits (n : Nat) : Str :=
  [n / 100000 % 10, n / 10000 % 10, n / 1000 % 10, n / 100 % 10, n / 10 % 10, n % 10].map fun d => UInt8.ofNat (48 + d)

/-- what the code uses from outside -/
structure Env where
  hmac : Str → Str → Str
  toUpper : Str → Str

/-- the padding that `hotp.GenerateCodeCustom` adds -/
def padded (s : Str) : Str := if s.length % 8 ≠ 0 then s ++ List.replicate (8 - s.length % 8) 61 else s

/-- `totp.GenerateCode`: six digits, 30 seconds, SHA1; `unix` are the seconds since 1970. `none`: an error. -/
def generate (v : Env) (secret : Str) (unix : Nat) : Option Str :=
  (decode32 (v.toUpper (padded (trimSpace secret)))).map fun key =>
    sixDigits (truncate (v.hmac key (be64 (unix / 30))) % 1000000)

/-- the uri that `SetTwofactor` makes of a secret (blobs.go:398-403) -/
def makeUri (uuid secret : Str) : Str :=
  b! "otpauth://totp/" ++ Url.pathEscape (b! "bpass:" ++ uuid) ++ b! "?secret=" ++ Url.queryEscape secret

/-- `otp.NewKeyFromURL` succeeds (blobs.go:406) -/
def uriOk (uri : Str) : Bool := (Url.parse (trimSpace uri)).isSome

/-- `Blob.TwoFactor` (blob.go:54-77) of a value that is not empty; `none`: an error -/
def code (v : Env) (unix : Nat) (uri : Str) : Option Str :=
  match Url.parse (trimSpace uri) with
  | none => none
  | some u =>
    if u.host ≠ b! "totp" then none
    else generate v (Url.queryGet (Url.parseQuery (Url.rawQuery (trimSpace uri))) (b! "secret")) unix

end Verif.Otp
