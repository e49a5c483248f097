import Verif.App.Repl
/-!
# Model of the lines that the prompt remembers (repl.go:175-179, readline.go:49-51, 102-108)

`repl.run` hands a line to `AddHistory` when its command has come back without an error. The line editor remembers nothing by
itself (`DisableAutoSaveHistory`) and has no file for it, so these are the lines that the arrow keys bring back, at the prompt and at
every question. How the editor merges equal lines and forgets those beyond the last thousand is not modelled; nor is the editor for
Windows, which forgets everything.
-/
namespace Verif.App
open Verif Verif.Txlogs Verif.Blob Verif.Crypt

/-- `repl.run` (repl.go:127-179) with the lines remembered, oldest first -/
def runRecall (P : Prims) (C : Codec) : List Turn → Repl → (Repl × Res AppErr Unit) × List Str
  | [], r => ((r, .ok ()), [])
  | (none, v) :: _, r => ((r, if v.ctrlC then .err .aborted else .ok ()), [])
  | (some line, v) :: rest, r =>
    match parseLine line with
    | none => runRecall P C rest r
    | some (cmd, args) =>
      match readOnlyFlag cmd with
      | none => runRecall P C rest r
      | some ro =>
        if r.u.readOnly = true ∧ ro = false then runRecall P C rest r
        else
          match (if ro then execRead v cmd args r else execWrite P C v cmd args r) with
          | (r, .ok false) =>
            let x := runRecall P C rest r
            (x.1, trimSpace line :: x.2)
          | (r, .ok true) => ((r, .ok ()), [])
          | (r, .err e) => ((r, .err e), [])
          | (r, .panic) => ((r, .panic), [])

end Verif.App
