import Verif.App.Repl
import Verif.App.Show
/-!
# Model of the completion of `readline.go`

Which of the offered words readline shows for the letters typed so far is the library's choice and not modelled.
-/
namespace Verif.App
open Verif Verif.Txlogs Verif.Blob Verif.Crypt

/-- `entryCompleter` (readline.go:115-131): the words offered for an entry. An error is printed and offers nothing. That it is
called before the file is open (`u.store.DB == nil`) is not modelled. -/
def complete (v : Env) (u : Session) : Session × Res AppErr (List Str) :=
  match lift u (search v.lower v.ord u.store []) with
  | (u, .panic) => (u, .panic)
  | (u, .err _) => (u, .ok [])
  | (u, .ok r) => (u, .ok (sortStr ((v.ord' r).map Prod.snd)))

/-- the commands that are completed, and whether the name of an entry is completed after them (readline.go:134-201) -/
def completed : List (Str × Bool) :=
  [(b! "passwd", false), (b! "help", false), (b! "exit", false), (b! "add", false), (b! "rm", true), (b! "mv", true),
   (b! "ls", false), (b! "cd", true), (b! "labels", false), (b! "show", true), (b! "set", true), (b! "get", true),
   (b! "cp", true), (b! "edit", true), (b! "open", true), (b! "rmk", true), (b! "label", true), (b! "rmlabel", true),
   (b! "pass", true), (b! "user", true), (b! "email", true), (b! "totp", true), (b! "sync", true), (b! "addsync", false),
   (b! "adduser", false), (b! "rekey", false)]

/-- the keys completed after the name of an entry (readline.go:145-190) -/
def completedKeys : List Str := [b! "email", b! "user", b! "pass", b! "totp", b! "notes"]

/-- a line at the prompt, with TAB pressed while typing it or not -/
def runTyped (P : Prims) (C : Codec) (v : Env) (tab : Bool) (line : Str) (r : Repl) : Repl × Res AppErr Bool :=
  if tab then
    match complete v r.u with
    | (u, .panic) => ({ r with u := u }, .panic)
    | (u, _) => runLine P C v line { r with u := u }
  else runLine P C v line r

/-- `repl.run` (repl.go:127-179) with TAB pressed at the lines marked so -/
def runTabs (P : Prims) (C : Codec) : List (Bool × Turn) → Repl → Repl × Res AppErr Unit
  | [], r => (r, .ok ())
  | (_, none, v) :: _, r => (r, if v.ctrlC then .err .aborted else .ok ())
  | (tab, some line, v) :: rest, r =>
    match runTyped P C v tab line r with
    | (r, .ok false) => runTabs P C rest r
    | (r, .ok true) => (r, .ok ())
    | (r, .err e) => (r, .err e)
    | (r, .panic) => (r, .panic)

end Verif.App
