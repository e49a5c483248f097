import Verif.App.File
/-!
# Model of the clipboard (commands.go:1263-1273, main.go:124-129, uihelpers.go:290-292)

What a line copies is a list of the texts given to `clipboard.WriteAll`, in order. The clipboard itself holds the last one. Whether
the clipboard can be written is one answer for a whole run.
-/
namespace Verif.App
open Verif Verif.Txlogs Verif.Blob Verif.Crypt

/-- the choice `c` of `getPassword` (uihelpers.go:290); the cases before it are other texts -/
def copyChoice : Input → Bool
  | some choice :: _ => (fields choice).head? = some (b! "c")
  | _ => false

/-- what the loop of `getPassword` copies (uihelpers.go:244-312), in step with `pwLoop` -/
def pwCopies (ent : Nat → Nat → UInt8) : Nat → Nat → Bool → PwState → Input → List Str
  | 0, _, _, _, _ => []
  | fuel + 1, i, regen, st, inp =>
    let next (st : PwState) (i : Nat) : List Str :=
      (if copyChoice inp then [st.password] else []) ++
        match choose st inp with
        | .again regen st rest => pwCopies ent fuel i regen st rest
        | _ => []
    if regen then
      match genPassword (ent i) st.length st.classes with
      | .panic => []
      | .err _ => next { st with password := [], shown := false } (i + 1)
      | .ok pw => next { st with password := pw, shown := true } (i + 1)
    else next st i

/-- what `getPassword` copies -/
def passwordCopies (ent : Nat → Nat → UInt8) (inp : Input) : List Str := pwCopies ent (inp.length + 1) 0 true {} inp

/-- what `get` copies with `copy` set (commands.go:658-722); `date` is how a time is printed, see C99 -/
def getCopies (date : Str → Str) (v : Env) (u : Session) (q key : Str) : List Str :=
  match (getCmd v u q key).2 with
  | .ok (some x) => [if key = keyUpdated then date x else x]
  | _ => []

/-- what `login` copies (commands.go:724-776), also if the prompt between the values fails -/
def loginCopies (v : Env) (u : Session) (q : Str) : List Str :=
  match lift u (findOne v.lower v.ord v.ord' u.store q) with
  | (u, .ok uuid) =>
    if uuid = [] then []
    else
      match lift u (find u.store uuid) with
      | (_, .ok e) =>
        match loginValues v (e.getD []) with
        | none => []
        | some l => (loginLoop l v.d.inp []).1.map Prod.snd
      | _ => []
  | _ => []

/-- what is left of the input when `addNew` asks for the password (commands.go:484-511), if it does -/
def addInput (v : Env) (u : Session) (nm : Str) : Option Input :=
  match Blob.new v.ord v.d.now v.d.uuid u.store.begin nm with
  | (_, .ok _) =>
    match prompt v.d.inp with
    | (none, _) => none
    | (some _, inp) =>
      match prompt inp with
      | (none, _) => none
      | (some _, inp) => some inp
  | _ => none

/-- the same for `addSCPEntry` (commands.go:355-398) -/
def scpInput (inp : Input) : Option Input :=
  match getString inp with
  | (none, _) => none
  | (some _, inp) =>
    match getString inp with
    | (none, _) => none
    | (some _, inp) =>
      match askPort inp with
      | (none, _) => none
      | (some _, inp) =>
        match getString inp with
        | (none, _) => none
        | (some _, inp) =>
          match getMenuChoice 3 inp with
          | (none, _) => none
          | (some choice, inp) => if choice = 2 then some inp else none

/-- the same for `addSync` (commands.go:294-353) -/
def addSyncInput (v : Env) (u : Session) (kind : Str) : Option Input :=
  if kind ≠ syncSCP then none
  else
    match newSync v.ord v.d.now v.d.uuid (u.store.begin.log.length + 1) u.store.begin kind with
    | some (_, .ok _) => scpInput v.d.inp
    | _ => none

/-- the same for `set` (commands.go:778-795) -/
def setInput (v : Env) (u : Session) (q key value : Str) : Option Input :=
  match findOne v.lower v.ord v.ord' u.store q with
  | (_, .ok uuid) => if uuid ≠ [] ∧ key = keyPass ∧ value = [] then some v.d.inp else none
  | _ => none

/-- what the password prompt copies -/
def askCopies (v : Env) : Option Input → List Str
  | none => []
  | some inp => passwordCopies v.d.ent inp

/-- the commands allowed in a read-only session (repl.go:569-610) -/
def readCopies (date : Str → Str) (v : Env) (cmd : Str) (args : List Str) (r : Repl) : List Str :=
  if cmd = b! "cp" then
    match queryArgs r.ctx args with
    | none => []
    | some (q, k, rest) => if rest ≠ [] ∧ (rest.head?.bind atoi).isNone then [] else getCopies date v r.u q k
  else if cmd = keyUser ∨ cmd = keyPass ∨ cmd = keyEmail ∨ cmd = keyTwoFactor then
    match queryArg r.ctx args with
    | none => []
    | some q => getCopies date v r.u q cmd
  else []

/-- the other commands -/
def writeCopies (v : Env) (cmd : Str) (args : List Str) (r : Repl) : List Str :=
  if cmd = b! "add" then
    match args with
    | [] => []
    | nm :: _ => askCopies v (addInput v r.u nm)
  else if cmd = b! "login" then
    match (match args with | q :: _ => q | [] => r.ctx) with
    | [] => []
    | q => loginCopies v r.u q
  else if cmd = b! "set" then
    match setArgs r.ctx args with
    | none => []
    | some (q, k, value) => askCopies v (setInput v r.u q k value)
  else if cmd = b! "addsync" then
    match args with
    | [] => []
    | kind :: _ => askCopies v (addSyncInput v r.u kind)
  else []

/-- what a line copies, in step with `runLine` -/
def lineCopies (date : Str → Str) (v : Env) (line : Str) (r : Repl) : List Str :=
  match parseLine line with
  | none => []
  | some (cmd, args) =>
    match readOnlyFlag cmd with
    | none => []
    | some true => readCopies date v cmd args r
    | some false => if r.u.readOnly then [] else writeCopies v cmd args r

/-- what a session at the prompt copies, in step with `runRepl` -/
def replCopies (P : Prims) (C : Codec) (date : Str → Str) : List Turn → Repl → List Str
  | [], _ => []
  | (none, _) :: _, _ => []
  | (some line, v) :: rest, r =>
    lineCopies date v line r ++
      match runLine P C v line r with
      | (r, .ok false) => replCopies P C date rest r
      | _ => []

/-- what a job copies, in step with `work`: nothing is copied while opening, saving, importing, exporting or synchronising -/
def jobCopies (P : Prims) (C : Codec) (date : Str → Str) (v : Env) (u : Session) : Job → List Str
  | .prompt auto turns =>
    match autoSync P C v auto { u := u } with
    | (r, .ok ()) => replCopies P C date turns r
    | _ => []
  | _ => []

/-- what a run copies, in step with `main` -/
def mainCopies (P : Prims) (C : Codec) (date : Str → Str) (history : Option Int) (salt : Str) (v : Env) (job : Job) (inp : Input)
    (old : Disk) : List Str :=
  match load P C history salt old inp with
  | (.ok u, _) => jobCopies P C date v u job
  | _ => []

/-- `copyToClipboard` (commands.go:1263-1273) for each text: what is in the clipboard afterwards -/
def copyAll (works : Bool) (clip : Str) (copies : List Str) : Str := if works then copies.getLast?.getD clip else clip

/-- The end of a run (main.go:123-129). A crash does not get there. -/
def clipAtExit (clear works : Bool) (clip : Str) : Res AppErr Unit → Str
  | .panic => clip
  | _ => if clear && works then [] else clip

/-- what a run leaves in the clipboard -/
def clipAfter (P : Prims) (C : Codec) (date : Str → Str) (clear works : Bool) (history : Option Int) (salt iv : Str) (v v' : Env)
    (job : Job) (inp : Input) (old : Disk) (clip : Str) : Str :=
  clipAtExit clear works (copyAll works clip (mainCopies P C date history salt v job inp old))
    (main P C history salt iv v v' job inp old).2

/-- what `bpass gen` leaves there (main.go:56-66): it returns before the clipboard is cleared -/
def clipAfterGen (ent : Nat → Nat → UInt8) (works : Bool) (inp : Input) (clip : Str) : Str := copyAll works clip (passwordCopies ent inp)

end Verif.App
