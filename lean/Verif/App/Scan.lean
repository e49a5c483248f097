import Verif.App.File
/-!
# Model of `scanEditor.Line` (noreadline.go:33-48), the prompt on Windows

`bufio.Scanner` with its defaults: it splits at line feeds, drops a carriage return before one, and gives up when its buffer of 65536
bytes holds no line feed. The prompt then fails with `ErrInterrupt`, and so it does at the end of the input. What is typed at the
prompts of a command is an argument, as everywhere; passwords are read by `LineHidden` (`App/Edges`).
-/
namespace Verif.App
open Verif Verif.Txlogs Verif.Blob Verif.Crypt

/-- `bufio.MaxScanTokenSize` -/
def scanMax : Nat := 65536

/-- `dropCR` of `bufio` -/
def dropCR (s : Str) : Str := if s.getLast? = some 13 then s.dropLast else s

/-- One call of `Scan` (noreadline.go:43): the line and the input after it; `none` = the end of the input, or no line feed in a full
buffer. -/
def scanLine (s : Str) : Option (Str × Str) :=
  if s = [] ∨ scanMax ≤ (s.takeWhile (· ≠ 10)).length then none
  else some (dropCR (s.takeWhile (· ≠ 10)), (s.dropWhile (· ≠ 10)).drop 1)

/-- the lines until `Scan` fails, at most `n` -/
def scanLines : Nat → Str → List Str
  | 0, _ => []
  | n + 1, s =>
    match scanLine s with
    | none => []
    | some (line, rest) => line :: scanLines n rest

/-- the lines `Line` returns before it fails -/
def scanned (s : Str) : List Str := scanLines s.length s

/-- a prompt that fails on Windows was interrupted (noreadline.go:44) -/
def winEnv (v : Env) : Env := { v with ctrlC := true }

/-- the turns of a run on Windows in which these lines are read; `vs` is what the commands meet -/
def winTurns : List Str → (Nat → Env) → List Turn
  | [], vs => [(none, winEnv (vs 0))]
  | line :: rest, vs => (some line, vs 0) :: winTurns rest fun i => vs (i + 1)

end Verif.App
