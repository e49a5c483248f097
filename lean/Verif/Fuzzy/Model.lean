import Verif.Go.Strings
/-!
# Model of `fuzzy/fuzzy.go`

`unicode.ToLower` is the parameter `lower`.
-/
namespace Verif.Fuzzy
open Verif

/-- fuzzy.go:30: `searchChar == char || searchChar == unicode.ToLower(char)` -/
def charMatch (lower : Nat → Nat) (searchChar char : Nat) : Bool :=
  searchChar = char || searchChar = lower char

/-- the inner loop (fuzzy.go:29-34): the rest of `s` after the first matching character; `none` if there is
none, `some none` if the slice expression of line 31 is out of range (panic). -/
def advance (lower : Nat → Nat) (c : Nat) (s : Str) : List (Nat × Nat) → Option (Option Str)
  | [] => none
  | (i, char) :: rest =>
    if charMatch lower c char then
      some (if runeLen char + i ≤ s.length then some (s.drop (runeLen char + i)) else none)
    else advance lower c s rest

/-- the outer loop (fuzzy.go:27-38); `none` = panic. -/
def matchLoop (lower : Nat → Nat) : List Nat → Str → Option Bool
  | [], _ => some true
  | c :: cs, s =>
    match advance lower c s (rangeStr s) with
    | none => some false
    | some none => none
    | some (some s') => matchLoop lower cs s'

/-- `Match` (fuzzy.go:15-39); `none` = panic. -/
def fuzzyMatch (lower : Nat → Nat) (s search : Str) : Option Bool :=
  if search.length > s.length then some false
  else if search.length = s.length ∧ s = search then some true
  else matchLoop lower (runes search) s

end Verif.Fuzzy
