import Verif.Json.Model
/-!
# Model of `json.MarshalIndent`

`dumpall` (commands.go:1225-1232) prints `json.MarshalIndent(u.store.DB, "", "  ")`, which is what `json.Marshal` gives, run through
`appendIndent` of `encoding/json`. That function follows the text with the scanner of the library; for a text `Marshal` wrote, only
three things about it matter: whether it is inside a string literal, whether the byte before was a backslash there, and whether
a byte outside is white space. Errors of the scanner are not modelled: such a text has none.
-/
namespace Verif.Json
open Verif Verif.Txlogs

/-- where in the text: outside string literals, inside one, or after a backslash inside one -/
inductive Mode where
  | out
  | str
  | esc
  deriving DecidableEq

/-- `appendNewline` with the prefix "" and the indentation "  " -/
def newline (d : Nat) : Str := 10 :: List.replicate (2 * d) 32

/-- a byte outside of literals: what is written for it, and the mode, `needIndent` and `depth` after it -/
def indentByte (need : Bool) (d : Nat) (c : UInt8) : Str × Mode × Bool × Nat :=
  if c = 123 ∨ c = 91 then ([c], .out, true, d)
  else if c = 44 then (c :: newline d, .out, need, d)
  else if c = 58 then ([c, 32], .out, need, d)
  else if c = 125 ∨ c = 93 then
    if need then ([c], .out, false, d) else (newline (d - 1) ++ [c], .out, false, d - 1)
  else if c = 34 then ([c], .str, need, d)
  else ([c], .out, need, d)

/-- the loop of `appendIndent` -/
def indent : Mode → Bool → Nat → Str → Str
  | _, _, _, [] => []
  | .esc, need, d, c :: r => c :: indent .str need d r
  | .str, need, d, c :: r =>
    c :: indent (if c = 34 then .out else if c = 92 then .esc else .str) need d r
  | .out, need, d, c :: r =>
    if isWs c then indent .out need d r
    else if need = true ∧ c ≠ 125 ∧ c ≠ 93 then
      let x := indentByte false (d + 1) c
      newline (d + 1) ++ x.1 ++ indent x.2.1 x.2.2.1 x.2.2.2 r
    else
      let x := indentByte need d c
      x.1 ++ indent x.2.1 x.2.2.1 x.2.2.2 r

/-- `json.MarshalIndent` of a `DB` -/
def marshalIndent (s : DB) : Str := indent .out false 0 (marshal s)

end Verif.Json
