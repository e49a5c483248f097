import Verif.App.Repl
/-!
# What a current entry is for (C121)
-/
namespace Verif.App.Spec
open Verif Verif.Blob

/-- the commands that take a query, which may be left out with a current entry (repl.go:31-52) -/
def queried : List Str :=
  [b! "show", b! "set", b! "get", b! "cp", b! "edit", b! "open", b! "rmk", b! "label", b! "rmlabel", keyPass, keyUser, keyEmail,
    keyTwoFactor, b! "dump"]

/-- those of them that take nothing but a query -/
def onlyQuery : List Str := [b! "open", b! "label", keyPass, keyUser, keyEmail, keyTwoFactor, b! "dump"]

/-- the session with `n` as its current entry -/
def atEntry (n : Str) (r : Repl) : Repl := { r with ctx := n }

/-- what a line did, with `n` as the current entry -/
def endsAt (n : Str) (x : Repl × Res AppErr Bool) : Repl × Res AppErr Bool := (atEntry n x.1, x.2)

/-- A line typed with a current entry and one typed without: a command that takes a query with its arguments, and the same
command with the name before them; or any other command than `login`, `cd` and `rm`, twice the same. -/
def SameButQuery (n line line' : Str) : Prop :=
  ∃ cmd args args', parseLine line = some (cmd, args) ∧ parseLine line' = some (cmd, args') ∧
    ((cmd ∈ queried ∧ args' = n :: args) ∨ (cmd = b! "login" ∧ args = [] ∧ args' = [n]) ∨
      (cmd ∉ queried ∧ cmd ∉ [b! "login", b! "cd", b! "rm"] ∧ args' = args))

/-- two lists of turns, line by line -/
inductive SameTurns (n : Str) : List Turn → List Turn → Prop
  | nil : SameTurns n [] []
  | ended (v : Env) (rest rest' : List Turn) : SameTurns n ((none, v) :: rest) ((none, v) :: rest')
  | line (line line' : Str) (v : Env) (rest rest' : List Turn) : SameButQuery n line line' → SameTurns n rest rest' →
      SameTurns n ((some line, v) :: rest) ((some line', v) :: rest')

end Verif.App.Spec
