import Verif.App.Commands
/-!
# Model of `repl.go` and of `main` (main.go:81-122)

A session at the prompt is a list of turns: the line typed (or `none` when the prompt fails) and what the command meets.
-/
namespace Verif.App
open Verif Verif.Txlogs Verif.Blob Verif.Crypt

/-- `repl` (repl.go:120-125): the session and the current entry. `out` collects the values that `get`, `cp` and the commands
named after keys print or copy, `pushed` what `sync` sends: the contents and the remotes. -/
structure Repl where
  u : Session
  ctx : Str := []
  out : List Str := []
  pushed : List (Str × List (Str × Bool)) := []
  deriving Repr, DecidableEq

/-- The commands and whether they are allowed in a read-only session (repl.go:186-567); `none` = unknown command. -/
def readOnlyFlag (cmd : Str) : Option Bool :=
  if cmd ∈ [b! "passwd", b! "adduser", b! "rekey", b! "rekeyall", b! "add", b! "mv", b! "rm", b! "rmk", b! "login", b! "set",
      b! "edit", b! "label", b! "rmlabel", b! "sync", b! "addsync"] then some false
  else if cmd ∈ [b! "ls", b! "cd", b! "cp", b! "get", keyUser, keyPass, keyEmail, keyTwoFactor, b! "open", b! "labels",
      b! "show", b! "dump", b! "dumpall", b! "help", b! "exit"] then some true
  else none

/-- a command typed: its name and arguments (repl.go:145-157); `none` = blank line -/
def parseLine (line : Str) : Option (Str × List Str) :=
  let line := trimSpace line
  match fields line with
  | [] => none
  | cmd :: args => if cmd = b! "set" then some (cmd, (split 32 line).drop 1) else some (cmd, args)

/-- name and remaining arguments for commands that take `<query> <key>` (repl.go:267-276, 398-407, 447-456, 570-579) -/
def queryArgs (ctx : Str) (args : List Str) : Option (Str × Str × List Str) :=
  if ctx = [] then
    match args with
    | q :: k :: rest => some (q, k, rest)
    | _ => none
  else
    match args with
    | k :: rest => some (ctx, k, rest)
    | [] => none

/-- the name for commands that take `<query>` only (repl.go:417-424, 432-439, 525-532) -/
def queryArg (ctx : Str) (args : List Str) : Option Str :=
  if ctx = [] then args.head? else some ctx

/-- what `set` makes of its arguments (repl.go:350-392); `none` = syntax message -/
def setArgs (ctx : Str) (args : List Str) : Option (Str × Str × Str) :=
  match queryArgs ctx args with
  | none => none
  | some (q, k, rest) => if q = [] ∨ k = [] then none else some (q, k, join 32 rest)

/-- put a session back; `true` = the program goes on to its end (`errExit`) -/
def back (r : Repl) : Session × Res AppErr Unit → Repl × Res AppErr Bool
  | (u, .ok ()) => ({ r with u := u }, .ok false)
  | (u, .err e) => ({ r with u := u }, .err e)
  | (u, .panic) => ({ r with u := u }, .panic)

/-- the same for commands with a result that is not tracked -/
def back_ {α : Type} (r : Repl) : Session × Res AppErr α → Repl × Res AppErr Bool
  | (u, .ok _) => ({ r with u := u }, .ok false)
  | (u, .err e) => ({ r with u := u }, .err e)
  | (u, .panic) => ({ r with u := u }, .panic)

/-- the same for `get` -/
def backOut (r : Repl) : Session × Res AppErr (Option Str) → Repl × Res AppErr Bool
  | (u, .ok (some x)) => ({ r with u := u, out := r.out ++ [x] }, .ok false)
  | (u, .ok none) => ({ r with u := u }, .ok false)
  | (u, .err e) => ({ r with u := u }, .err e)
  | (u, .panic) => ({ r with u := u }, .panic)

/-- the name of the entry selected by a query (repl.go:303-316) -/
def entryName (v : Env) (u : Session) (q : Str) : Session × Res AppErr (Option Str) :=
  oneEntry v u q none fun u _ e =>
    match name e with
    | some n => (u, .ok (some n))
    | none => (u, .panic)

/-- `cd` (repl.go:295-323) -/
def cd (v : Env) (r : Repl) : List Str → Repl × Res AppErr Bool
  | [] => ({ r with ctx := [] }, .ok false)
  | [q] =>
    match entryName v r.u q with
    | (u, .ok (some n)) => ({ r with u := u, ctx := n }, .ok false)
    | (u, .ok none) => ({ r with u := u }, .ok false)
    | (u, .err e) => ({ r with u := u }, .err e)
    | (u, .panic) => ({ r with u := u }, .panic)
  | _ => (r, .ok false)

/-- the commands allowed in a read-only session (repl.go:282-331, 414-428, 462-499, 522-566, 569-610) -/
def execRead (v : Env) (cmd : Str) (args : List Str) (r : Repl) : Repl × Res AppErr Bool :=
  if cmd = b! "ls" then back_ r (list v r.u (args.head?.getD []))
  else if cmd = b! "cd" then cd v r args
  else if cmd = b! "cp" ∨ cmd = b! "get" then
    match queryArgs r.ctx args with
    | none => (r, .ok false)
    | some (q, k, rest) =>
      if rest ≠ [] ∧ (rest.head?.bind atoi).isNone then (r, .ok false)
      else backOut r (getCmd v r.u q k)
  else if cmd = keyUser ∨ cmd = keyPass ∨ cmd = keyEmail ∨ cmd = keyTwoFactor then
    match queryArg r.ctx args with
    | none => (r, .ok false)
    | some q => backOut r (getCmd v r.u q cmd)
  else if cmd = b! "open" then
    match queryArg r.ctx args with
    | none => (r, .ok false)
    | some q => back_ r (openurl v r.u q)
  else if cmd = b! "labels" then if args = [] then (r, .ok false) else back_ r (listByLabels v r.u args)
  else if cmd = b! "show" then
    let (q, rest) := if r.ctx = [] then (args.head?, args.drop 1) else (some r.ctx, args)
    match q with
    | none => (r, .ok false)
    | some q => back_ r (showCmd v r.u q ((rest.head?.bind atoi).getD 0))
  else if cmd = b! "dump" then
    match queryArg r.ctx args with
    | none => (r, .ok false)
    | some q => back_ r (dump v r.u q)
  else if cmd = b! "exit" then (r, .ok true)
  else (r, .ok false)   -- dumpall, help

/-- the other commands (repl.go:187-280, 333-412, 430-460, 501-520) -/
def execWrite (P : Prims) (C : Codec) (v : Env) (cmd : Str) (args : List Str) (r : Repl) : Repl × Res AppErr Bool :=
  if cmd = b! "passwd" then back r (passwd P v.ord v.d r.u (args.head?.getD []))
  else if cmd = b! "adduser" then
    match args with
    | [] => (r, .ok false)
    | user :: _ => back r (adduser P v.ord v.d r.u user)
  else if cmd = b! "rekey" then back r (rekey P v.ord v.d r.u (args.head?.getD []))
  else if cmd = b! "rekeyall" then back_ r (rekeyAll P v.ord v.ord' v.d v.ds r.u)
  else if cmd = b! "add" then
    match args with
    | [] => (r, .ok false)
    | nm :: _ => back r ((fun x => (x.1, interruptible v x.2)) (addNew v r.u nm))
  else if cmd = b! "mv" then
    match args with
    | src :: dst :: _ => back r (renameCmd v r.u src dst)
    | _ => (r, .ok false)
  else if cmd = b! "rm" then
    match args with
    | [] => (r, .ok false)
    | nm :: _ =>
      match back r (deleteEntry v.ord (v.d.now 0) v.d.inp r.u nm) with
      | (r, .ok b) => (if r.ctx = nm then { r with ctx := [] } else r, .ok b)
      | x => x
  else if cmd = b! "rmk" then
    match queryArgs r.ctx args with
    | none => (r, .ok false)
    | some (q, k, _) => back r (deleteKeyCmd v r.u q k)
  else if cmd = b! "login" then
    match (match args with | q :: _ => q | [] => r.ctx) with
    | [] => (r, .ok false)
    | q => back_ r (login v r.u q)
  else if cmd = b! "set" then
    match setArgs r.ctx args with
    | none => (r, .ok false)
    | some (q, k, value) => back r (setCmd v r.u q k value)
  else if cmd = b! "edit" then
    match queryArgs r.ctx args with
    | none => (r, .ok false)
    | some (q, k, _) => back r (edit v r.u q k)
  else if cmd = b! "label" then
    match queryArg r.ctx args with
    | none => (r, .ok false)
    | some q => back r (addLabels v r.u q)
  else if cmd = b! "rmlabel" then
    match queryArgs r.ctx args with
    | none => (r, .ok false)
    | some (q, l, _) => back r (deleteLabel v r.u q l)
  else if cmd = b! "sync" then
    let x := sync P C v.w v.v (args.head?.getD []) true r.u v.d.inp
    let r := if x.pushed = [] then r else { r with pushed := r.pushed ++ [(x.sent, x.pushed)] }
    back r (x.session, x.result)
  else if cmd = b! "addsync" then
    match args with
    | [] => (r, .ok false)
    | kind :: _ => back r ((fun x => (x.1, interruptible v x.2)) (addSync v r.u kind))
  else (r, .ok false)

/-- one line (repl.go:145-175): `ok true` = exit -/
def runLine (P : Prims) (C : Codec) (v : Env) (line : Str) (r : Repl) : Repl × Res AppErr Bool :=
  match parseLine line with
  | none => (r, .ok false)
  | some (cmd, args) =>
    match readOnlyFlag cmd with
    | none => (r, .ok false)
    | some true => execRead v cmd args r
    | some false => if r.u.readOnly then (r, .ok false) else execWrite P C v cmd args r

/-- a line, or `none` when the prompt fails, and what the command meets -/
abbrev Turn := Option Str × Env

/-- `repl.run` (repl.go:127-179): `ok ()` = the file will be saved. When the turns are used up the input has ended. -/
def runRepl (P : Prims) (C : Codec) : List Turn → Repl → Repl × Res AppErr Unit
  | [], r => (r, .ok ())
  | (none, v) :: _, r => (r, if v.ctrlC then .err .aborted else .ok ())
  | (some line, v) :: rest, r =>
    match runLine P C v line r with
    | (r, .ok false) => runRepl P C rest r
    | (r, .ok true) => (r, .ok ())
    | (r, .err e) => (r, .err e)
    | (r, .panic) => (r, .panic)

/-- a `sync("", true, true)` of `main`, unless the session is read-only or `-no-auto-sync` is given -/
def autoSync (P : Prims) (C : Codec) (v : Env) (auto : Bool) (r : Repl) : Repl × Res AppErr Unit :=
  if r.u.readOnly = false ∧ auto = true then
    let x := sync P C v.w v.v [] true r.u v.d.inp
    let r := if x.pushed = [] then r else { r with pushed := r.pushed ++ [(x.sent, x.pushed)] }
    ({ r with u := x.session }, x.result)
  else (r, .ok ())

/-- `main` from the opened file to the end (main.go:92-122): the last state and what is written to the file. -/
def session (P : Prims) (C : Codec) (auto : Bool) (v v' : Env) (iv : Str) (turns : List Turn) (u : Session) :
    Repl × Res AppErr (Option Str) :=
  match autoSync P C v auto { u := u } with
  | (r, .err e) => (r, .err e)
  | (r, .panic) => (r, .panic)
  | (r, .ok ()) =>
    match runRepl P C turns r with
    | (r, .err e) => (r, .err e)
    | (r, .panic) => (r, .panic)
    | (r, .ok ()) =>
      match autoSync P C v' (auto && r.u.startTx ≠ r.u.store.log.length) r with
      | (r, .err e) => (r, .err e)
      | (r, .panic) => (r, .panic)
      | (r, .ok ()) => (r, saveBlob P C v'.ord v'.ord' iv r.u)

end Verif.App
