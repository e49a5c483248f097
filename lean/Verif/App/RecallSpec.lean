import Verif.App.Recall
/-! # What C114 says -/
namespace Verif.App.Spec
open Verif Verif.Txlogs Verif.Blob Verif.Crypt

/-- the lines typed at the prompt up to its end, or up to `exit` -/
def atPrompt : List Turn → List Str
  | [] => []
  | (none, _) :: _ => []
  | (some line, _) :: rest => if (parseLine line).map Prod.fst = some (b! "exit") then [] else line :: atPrompt rest

/-- the first word is a command, and one that is allowed -/
def isCommand (readOnly : Bool) (line : Str) : Bool :=
  match parseLine line with
  | none => false
  | some (cmd, _) =>
    match readOnlyFlag cmd with
    | none => false
    | some ro => !readOnly || ro

end Verif.App.Spec
