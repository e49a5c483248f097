import Verif.Go.Fields
import Verif.Go.Hex
/-!
# `strconv.Quote`

`%#v` prints a string as `strconv.Quote` gives it. Which characters are printable (`strconv.IsPrint`, a table) is a parameter.
-/
namespace Verif

/-- `n` as `k` hexadecimal digits -/
def hexDigits : Nat → Nat → Str
  | 0, _ => []
  | k + 1, n => hexDigit (n / 16 ^ k % 16) :: hexDigits k n

/-- the letter of a short escape -/
def goShort (r : Nat) : Option UInt8 :=
  if r = 7 then some 97 else if r = 8 then some 98 else if r = 12 then some 102 else if r = 10 then some 110
  else if r = 13 then some 114 else if r = 9 then some 116 else if r = 11 then some 118 else none

/-- one decoded character with its bytes (`appendQuotedWith` and `appendEscapedRune` for `"`). A decoded character is always
a valid rune, so the case that replaces an invalid one does not occur. -/
def quotePiece (isPrint : Nat → Bool) (p : Nat × Str) : Str :=
  if p.1 = runeError ∧ p.2.length = 1 then [92, 120] ++ hexDigits 2 (p.2.headD 0).toNat
  else if p.1 = 34 ∨ p.1 = 92 then [92, UInt8.ofNat p.1]
  else if isPrint p.1 then encodeRune p.1
  else
    match goShort p.1 with
    | some e => [92, e]
    | none =>
      if p.1 < 32 ∨ p.1 = 127 then [92, 120] ++ hexDigits 2 p.1
      else if p.1 < 0x10000 then [92, 117] ++ hexDigits 4 p.1
      else [92, 85] ++ hexDigits 8 p.1

/-- `strconv.Quote` -/
def goQuote (isPrint : Nat → Bool) (s : Str) : Str := 34 :: (pieces s).flatMap (quotePiece isPrint) ++ [34]

end Verif
