import Verif.App.Repl
import Verif.App.Transfer
/-!
# Model of `main` (main.go:25-143): the file on disk and the exit status

Not modelled: `version` and `gen` (they touch no file; `gen` is `getPassword`), the command line (`cli.go`), and the set-up of
the terminal (main.go:51-54).
-/
namespace Verif.App
open Verif Verif.Txlogs Verif.Blob Verif.Crypt

/-- what the file contains; `none` = there is no file -/
abbrev Disk := Option Str

/-- `ioutil.WriteFile(flagFile, data, 0600)` (main.go:272): the file is created or truncated, then the bytes are written. The
contents one after the other; a crash or a failing write leaves one of them. -/
def writeFile (old : Disk) (data : Str) : List Disk :=
  old :: (List.range (data.length + 1)).map fun k => some (data.take k)

/-- `saveBlob` (main.go:252-273) with the contents of the file meanwhile -/
def saveTrace (P : Prims) (C : Codec) (ord : Order) (ord' : Results → Results) (iv : Str) (u : Session) (old : Disk) :
    List Disk :=
  match saveBlob P C ord ord' iv u with
  | .ok (some f) => writeFile old f
  | _ => [old]

/-- what the program was started for (main.go:80-116) -/
inductive Job where
  | lpassimport (toLower : Str → Str) (ds : Nat → Draw) (out : Option Str)
  | export (format : Str) (canWrite : Bool)
  | prompt (auto : Bool) (turns : List Turn)

/-- the job between opening and saving (main.go:81-116); `v` and `v'` are what the synchronisations meet -/
def work (P : Prims) (C : Codec) (v v' : Env) (created : Bool) (inp : Input) (u : Session) : Job → Session × Res AppErr Unit
  | .lpassimport toLower ds out => importLastpass toLower v.ord ds created out u inp
  | .export format canWrite =>
    match export_ format canWrite u.store with
    | .ok _ => (u, .ok ())
    | .err e => (u, .err e)
    | .panic => (u, .panic)
  | .prompt auto turns =>
    match autoSync P C v auto { u := u } with
    | (r, .err e) => (r.u, .err e)
    | (r, .panic) => (r.u, .panic)
    | (r, .ok ()) =>
      match runRepl P C turns r with
      | (r, .err e) => (r.u, .err e)
      | (r, .panic) => (r.u, .panic)
      | (r, .ok ()) =>
        match autoSync P C v' (auto && r.u.startTx ≠ r.u.store.log.length) r with
        | (r, x) => (r.u, x)

/-- `loadBlob` (main.go:145-250) -/
def load (P : Prims) (C : Codec) (history : Option Int) (salt : Str) (old : Disk) (inp : Input) : Res AppErr Session × Input :=
  match old with
  | none => createFile P history salt inp
  | some f => openFile P C history f inp

/-- A run: the contents of the file one after the other, and how it ended (`err` = an error was printed). -/
def main (P : Prims) (C : Codec) (history : Option Int) (salt iv : Str) (v v' : Env) (job : Job) (inp : Input) (old : Disk) :
    List Disk × Res AppErr Unit :=
  match load P C history salt old inp with
  | (.err e, _) => ([old], .err e)
  | (.panic, _) => ([old], .panic)
  | (.ok u, inp) =>
    match work P C v v' old.isNone inp u job with
    | (_, .err e) => ([old], .err e)
    | (_, .panic) => ([old], .panic)
    | (u, .ok ()) =>
      (saveTrace P C v'.ord v'.ord' iv u old,
        match saveBlob P C v'.ord v'.ord' iv u with
        | .ok _ => .ok ()
        | .err e => .err e
        | .panic => .panic)

/-- The exit status (main.go:124-138). `err` is assigned anew by `clipboard.WriteAll` and by `ctx.in.Close`. -/
def exitStatus (clearClip clipFails closeFails : Bool) : Res AppErr Unit → Nat
  | .panic => 2
  | r =>
    let err := match r with | .ok () => false | _ => true
    let err := if clearClip then clipFails else err
    let err := if closeFails then true else (fun _ => false) err
    if err then 1 else 0

end Verif.App
