import Verif.App.Accounts
import Verif.App.Sync
/-!
# Model of the remaining commands of `commands.go`

As in `Verif.App.Accounts` a command maps a session to the session afterwards and an outcome. What is printed is in
`Verif.App.Show`, but for the value that `get` prints or copies.
-/
namespace Verif.App
open Verif Verif.Txlogs Verif.Blob Verif.Crypt

/-- no remotes -/
def World.none : World where
  scheme := fun _ => Option.none
  sshPull := fun _ _ inp => (some (.failed, []), inp)
  readFile := fun _ _ => .failed
  sshPush := fun _ _ _ inp => (some (false, []), inp)
  writeFile := fun _ _ _ => false

/-- What a command meets outside the session. The libraries for URLs, one-time passwords and keys and the editor are outside the
model; they appear as arbitrary functions. -/
structure Env where
  lower : Nat → Nat := asciiLower
  isUpper : Nat → Bool := fun r => 0x41 ≤ r && r ≤ 0x5A
  ord : Order := id
  ord' : Results → Results := id
  d : Draw := {}
  ds : Nat → Draw := fun _ => {}
  w : World := World.none
  v : SyncEnv := {}
  /-- a prompt that fails was interrupted (`ErrInterrupt`), otherwise it met the end of input (`ErrEnd`) -/
  ctrlC : Bool := false
  /-- `Blob.TwoFactor` for a non-empty totp value -/
  totp : Str → Option Str := fun _ => none
  otpUri : Str → Str → Str := fun _ k => k
  otpOk : Str → Bool := fun _ => true
  /-- `url.Parse` succeeds, with a scheme and without an opaque part (commands.go:804-811) -/
  urlOk : Str → Bool := fun _ => true
  /-- `url.Parse` succeeds (commands.go:1194-1198) -/
  urlParses : Str → Bool := fun _ => true
  /-- the value in the temporary file after the editor ran on the old value (commands.go:848-928): `none` = the editor could not
  be started, `some none` = anything else that ends the command with a message -/
  editor : Str → Option (Option Str) := fun s => some (some s)
  /-- `filepath.Abs` and the file URL (commands.go:322-332) -/
  fileUrl : Str → Option Str := some
  /-- the scp URL from user, host, port, path and password (commands.go:392-395, 463) -/
  scpUrl : Str → Str → Str → Str → Option Str → Str := fun _ _ _ p _ => p
  /-- a generated private and public key; `none` = generation failed with a message (commands.go:405-409, 431-435) -/
  keys : Option (Str × Str) := none

/-- a failed prompt in a command that treats the end of input as "aborted" (commands.go:282-292, 471-482) -/
def interruptible (v : Env) : Res AppErr Unit → Res AppErr Unit
  | .err .aborted => if v.ctrlC then .err .aborted else .ok ()
  | r => r

/-- a call of the blob API whose outcome is returned -/
def lift {α : Type} (u : Session) : Out α → Session × Res AppErr α
  | (s, .ok a) => ({ u with store := s }, .ok a)
  | (s, .err e) => ({ u with store := s }, .err (.blob e))
  | (s, .panic) => ({ u with store := s }, .panic)

/-- a call of the blob API whose error is dropped (`u.store.Set(…)` as a statement) -/
def lift_ (u : Session) : Out Unit → Session × Res AppErr Unit
  | (s, .panic) => ({ u with store := s }, .panic)
  | (s, _) => ({ u with store := s }, .ok ())

/-- `Do` (txlogs.go:173-182) around a command body -/
def doCmd (u : Session) (f : Session → Session × Res AppErr Unit) : Session × Res AppErr Unit :=
  match f { u with store := u.store.begin } with
  | (u, .panic) => (u, .panic)
  | (u, .err e) =>
    match u.store.rollback with
    | some s => ({ u with store := s }, .err e)
    | none => (u, .panic)
  | (u, .ok ()) =>
    match u.store.commit with
    | some s => ({ u with store := s }, .ok ())
    | none => (u, .panic)

/-- the beginning of most commands: `findOne`, and nothing more when nothing was selected -/
def one {α : Type} (v : Env) (u : Session) (q : Str) (dflt : α) (k : Session → Str → Session × Res AppErr α) :
    Session × Res AppErr α :=
  match lift u (findOne v.lower v.ord v.ord' u.store q) with
  | (u, .ok uuid) => if uuid = [] then (u, .ok dflt) else k u uuid
  | (u, .err e) => (u, .err e)
  | (u, .panic) => (u, .panic)

/-- `findOne`, then `MustFind` -/
def oneEntry {α : Type} (v : Env) (u : Session) (q : Str) (dflt : α) (k : Session → Str → Entry → Session × Res AppErr α) :
    Session × Res AppErr α :=
  one v u q dflt fun u uuid =>
    match lift u (mustFind u.store uuid) with
    | (u, .ok e) => k u uuid e
    | (u, .err e) => (u, .err e)
    | (u, .panic) => (u, .panic)

/-- the port loop of `addSCPEntry` (commands.go:366-385) -/
def askPort : Input → Option Str × Input
  | [] => (none, [])
  | none :: rest => (none, rest)
  | some port :: rest =>
    if port = [] then (some (b! "22"), rest)
    else if (atoi port).isSome then (some port, rest) else askPort rest

/-- `addSCPEntry` (commands.go:355-469): the store and the url -/
def addSCPEntry (v : Env) (u : Session) (uuid : Str) : Session × Res AppErr Str :=
  match getString v.d.inp with
  | (none, _) => (u, .err .aborted)
  | (some user, inp) =>
    match getString inp with
    | (none, _) => (u, .err .aborted)
    | (some host, inp) =>
      match askPort inp with
      | (none, _) => (u, .err .aborted)
      | (some port, inp) =>
        match getString inp with
        | (none, _) => (u, .err .aborted)
        | (some path, inp) =>
          match getMenuChoice 3 inp with
          | (none, _) => (u, .err .aborted)
          | (some choice, inp) =>
            if choice = 2 then
              match getPassword v.d.ent inp with
              | .panic => (u, .panic)
              | .err _ => (u, .err .aborted)
              | .ok pass => (u, .ok (v.scpUrl user host port path (some pass)))
            else
              match v.keys with
              | none => (u, .ok (v.scpUrl user host port path none))
              | some (priv, pub) =>
                let s := (Blob.set (fun i => v.d.now (i + 4)) u.store uuid keyPriv priv).1
                let s := if choice = 0 then (Blob.set (fun i => v.d.now (i + 7)) s uuid keyPub pub).1
                  else s.setKey (v.d.now 7) uuid keyPub pub
                ({ u with store := s }, .ok (v.scpUrl user host port path none))

/-- `addSync` (commands.go:294-353) -/
def addSync (v : Env) (u : Session) (kind : Str) : Session × Res AppErr Unit :=
  if kind ≠ syncSCP ∧ kind ≠ syncFile then (u, .ok ())
  else
    doCmd u fun u =>
      match newSync v.ord v.d.now v.d.uuid (u.store.log.length + 1) u.store kind with
      | none => (u, .panic)
      | some r =>
        match lift u r with
        | (u, .panic) => (u, .panic)
        | (u, .err e) => (u, .err e)
        | (u, .ok uuid) =>
          let uri : Session × Res AppErr Str :=
            if kind = syncFile then
              match getString v.d.inp with
              | (none, _) => (u, .err .aborted)
              | (some file, _) =>
                match v.fileUrl file with
                | none => (u, .err .aborted)
                | some uri => (u, .ok uri)
            else addSCPEntry v u uuid
          match uri with
          | (u, .panic) => (u, .panic)
          | (u, .err e) => (u, .err e)
          | (u, .ok uri) =>
            let s := (u.store.setKey (v.d.now 10) uuid keySync (b! "true")).setKey (v.d.now 11) uuid keyURL uri
            match lift { u with store := s } (find s uuid) with
            | (u, .panic) => (u, .panic)
            | (u, .err e) => (u, .err e)
            | (u, .ok e) =>
              match e.bind name with
              | none => (u, .panic)
              | some _ => (u, .ok ())

/-- a raw `Set` unless the value is empty (commands.go:512-520) -/
def setNonEmpty (s : DB) (now : Int) (uuid key value : Str) : DB :=
  if value = [] then s else s.setKey now uuid key value

/-- `addNew` (commands.go:484-524) -/
def addNew (v : Env) (u : Session) (nm : Str) : Session × Res AppErr Unit :=
  doCmd u fun u =>
    match Blob.new v.ord v.d.now v.d.uuid u.store nm with
    | (s, .panic) => ({ u with store := s }, .panic)
    | (s, .err .nameNotUnique) => ({ u with store := s }, .ok ())
    | (s, .err e) => ({ u with store := s }, .err (.blob e))
    | (s, .ok uuid) =>
      let u := { u with store := s }
      match prompt v.d.inp with
      | (none, _) => (u, .err .aborted)
      | (some email, inp) =>
        match prompt inp with
        | (none, _) => (u, .err .aborted)
        | (some user, inp) =>
          match getPassword v.d.ent inp with
          | .panic => (u, .panic)
          | .err _ => (u, .err .aborted)
          | .ok pass =>
            let s := setNonEmpty s (v.d.now 4) uuid keyUser user
            let s := setNonEmpty s (v.d.now 5) uuid keyEmail email
            let s := setNonEmpty s (v.d.now 6) uuid keyPass pass
            ({ u with store := s }, .ok ())

/-- `rename` (commands.go:526-545) -/
def renameCmd (v : Env) (u : Session) (src dst : Str) : Session × Res AppErr Unit :=
  match lift u (findByName v.ord u.store src) with
  | (u, .panic) => (u, .panic)
  | (u, .err e) => (u, .err e)
  | (u, .ok none) => (u, .ok ())
  | (u, .ok (some (uuid, _))) =>
    if uuid = [] then (u, .ok ())
    else
      match Blob.rename v.ord v.d.now u.store uuid dst with
      | (s, .panic) => ({ u with store := s }, .panic)
      | (s, .err .nameNotUnique) => ({ u with store := s }, .ok ())
      | (s, .err e) => ({ u with store := s }, .err (.blob e))
      | (s, .ok ()) => ({ u with store := s }, .ok ())

/-- `deleteKey` (commands.go:600-625) -/
def deleteKeyCmd (v : Env) (u : Session) (q key : Str) : Session × Res AppErr Unit :=
  oneEntry v u q () fun u uuid e =>
    if (e.get? key).isSome then lift_ u (Blob.deleteKey v.d.now u.store uuid key) else (u, .ok ())

/-- `list` (commands.go:627-640) -/
def list (v : Env) (u : Session) (q : Str) : Session × Res AppErr Results :=
  lift u (search v.lower v.ord u.store q)

/-- `listByLabels` (commands.go:642-656) -/
def listByLabels (v : Env) (u : Session) (ls : List Str) : Session × Res AppErr Results :=
  lift u (searchLabels v.ord u.store ls)

/-- `get` (commands.go:658-722): the value printed or copied, if any. The code for `updated` is printed as a date, here it is
the number. Its parameter `index` is not used. -/
def getCmd (v : Env) (u : Session) (q key : Str) : Session × Res AppErr (Option Str) :=
  oneEntry v u q none fun u _ e =>
    if key = keyTwoFactor then
      match (if val e keyTwoFactor = [] then some [] else v.totp (val e keyTwoFactor)) with
      | none => (u, .ok none)
      | some code =>
        if code = [] then (if name e = none then (u, .panic) else (u, .ok none)) else (u, .ok (some code))
    else if key = keyUpdated then
      match updated e with
      | none => (u, .err .json)
      | some none => if name e = none then (u, .panic) else (u, .ok none)
      | some (some t) => (u, .ok (some (fmtInt t)))
    else
      match e.get? key with
      | none => if name e = none then (u, .panic) else (u, .ok none)
      | some value => (u, .ok (some value))

/-- the keys `login` copies, in order (commands.go:743-763); `none` = no code for totp (an error) -/
def loginValues (v : Env) (e : Entry) : Option (List (Str × Str)) :=
  let plain := [keyUser, keyEmail, keyPass].filterMap fun k => (e.get? k).map fun x => (k, x)
  match e.get? keyTwoFactor with
  | none => some plain
  | some t => if t = [] then some (plain ++ [(keyTwoFactor, [])]) else (v.totp t).map fun c => plain ++ [(keyTwoFactor, c)]

/-- the prompts between the values (commands.go:765-773) -/
def loginLoop : List (Str × Str) → Input → List (Str × Str) → List (Str × Str) × Bool
  | [], _, out => (out, true)
  | [x], _, out => (out ++ [x], true)
  | x :: y :: rest, inp, out =>
    match prompt inp with
    | (none, _) => (out ++ [x], false)
    | (some _, inp) => loginLoop (y :: rest) inp (out ++ [x])

/-- `login` (commands.go:724-776): what was copied, in order -/
def login (v : Env) (u : Session) (q : Str) : Session × Res AppErr (List (Str × Str)) :=
  one v u q [] fun u uuid =>
    match lift u (find u.store uuid) with
    | (u, .panic) => (u, .panic)
    | (u, .err e) => (u, .err e)
    | (u, .ok e) =>
      match loginValues v (e.getD []) with
      | none => (u, .err .json)
      | some l =>
        match loginLoop l v.d.inp [] with
        | (out, true) => (u, .ok out)
        | (_, false) => (u, .err .aborted)

/-- `set` (commands.go:778-831) -/
def setCmd (v : Env) (u : Session) (q key value : Str) : Session × Res AppErr Unit :=
  one v u q () fun u uuid =>
    if key = keyPass then
      if value = [] then
        match getPassword v.d.ent v.d.inp with
        | .panic => (u, .panic)
        | .err _ => (u, .err .aborted)
        | .ok pw => lift_ u (Blob.set v.d.now u.store uuid key pw)
      else lift_ u (Blob.set v.d.now u.store uuid key value)
    else if key = keyTwoFactor then lift_ u (setTwofactor v.otpUri v.otpOk v.d.now u.store uuid value)
    else if key = keyURL then
      if v.urlOk value then lift_ u (Blob.set v.d.now u.store uuid key value) else (u, .ok ())
    else if value = [] then
      match promptMultiline v.ctrlC v.d.inp [] false with
      | (none, _) => (u, .err .aborted)
      | (some text, _) => lift_ u (Blob.set v.d.now u.store uuid key text)
    else lift_ u (Blob.set v.d.now u.store uuid key value)

/-- `edit` (commands.go:833-943). An error of `MustFind` is only printed. -/
def edit (v : Env) (u : Session) (q key : Str) : Session × Res AppErr Unit :=
  one v u q () fun u uuid =>
    match lift u (mustFind u.store uuid) with
    | (u, .panic) => (u, .panic)
    | (u, .err _) => (u, .ok ())
    | (u, .ok e) =>
      match v.editor (val e key) with
      | none => (u, .err .json)
      | some none => (u, .ok ())
      | some (some value) =>
        if value = [] then lift_ u (Blob.deleteKey v.d.now u.store uuid key)
        else lift_ u (Blob.set v.d.now u.store uuid key value)

/-- `validateLabel` (commands.go:1242-1261) -/
def validateLabel (isUpper : Nat → Bool) (ls : List Str) (l : Str) : Bool :=
  (runes l).all (fun r => !isSpaceRune r && !isUpper r) && !ls.contains l

/-- the loop of `addLabels` (commands.go:967-985): `none` = interrupted; otherwise the labels and whether any was added -/
def labelLoop (v : Env) : Input → List Str → Bool → Option (List Str × Bool)
  | [], ls, changed => if v.ctrlC then none else some (ls, changed)
  | none :: _, ls, changed => if v.ctrlC then none else some (ls, changed)
  | some line :: rest, ls, changed =>
    if line = [] ∨ line = b! "." then some (ls, changed)
    else if validateLabel v.isUpper ls line then labelLoop v rest (ls ++ [line]) true
    else labelLoop v rest ls changed

/-- `addLabels` (commands.go:945-992) -/
def addLabels (v : Env) (u : Session) (q : Str) : Session × Res AppErr Unit :=
  oneEntry v u q () fun u uuid e =>
    match labelLoop v v.d.inp (labels e) false with
    | none => (u, .err .aborted)
    | some (_, false) => (u, .ok ())
    | some (ls, true) =>
      match lift_ u (Blob.set v.d.now u.store uuid keyLabels (join comma ls)) with
      | (u, .ok ()) => if name e = none then (u, .panic) else (u, .ok ())
      | r => r

/-- `deleteLabel` (commands.go:994-1033) -/
def deleteLabel (v : Env) (u : Session) (q label : Str) : Session × Res AppErr Unit :=
  oneEntry v u q () fun u uuid e =>
    match (labels e).findIdx? (· = label) with
    | none => (u, .ok ())
    | some i =>
      match lift u (removeLabel v.d.now u.store uuid i) with
      | (u, .ok ()) => if name e = none then (u, .panic) else (u, .ok ())
      | r => r

/-- `show` (commands.go:1035-1148): the entry shown, if any. What is printed of it is not modelled, except that an entry whose
time stamp is not a number ends in an error. -/
def showCmd (v : Env) (u : Session) (q : Str) (snapshot : Int) : Session × Res AppErr (Option Entry) :=
  oneEntry v u q none fun u uuid e =>
    let print (u : Session) (e : Entry) : Session × Res AppErr (Option Entry) :=
      if e = [] then (u, .ok none)
      else
        match updated e with
        | none => (u, .err .json)
        | some _ => (u, .ok (some e))
    if snapshot ≠ 0 then
      if snapshot > u.store.nVersions uuid then (if name e = none then (u, .panic) else (u, .ok none))
      else
        match u.store.entrySnapshotAt uuid snapshot with
        | .panic => (u, .panic)
        | .err _ => (u, .ok none)
        | .ok e => print u e
    else print u e

/-- the second half of `openurl` (commands.go:1188-1204) -/
def openLink (v : Env) (u : Session) (_ : Str) (e : Entry) : Session × Res AppErr (Option Str) :=
  if val e keyURL = [] then (if name e = none then (u, .panic) else (u, .ok none))
  else if v.urlParses (val e keyURL) then (u, .ok (some (val e keyURL))) else (u, .ok none)

/-- `openurl` (commands.go:1174-1205): the link handed to the system, if any. An error of `findOne` is dropped. -/
def openurl (v : Env) (u : Session) (q : Str) : Session × Res AppErr (Option Str) :=
  match lift u (findOne v.lower v.ord v.ord' u.store q) with
  | (u, .err _) => (u, .ok none)
  | (u, .panic) => (u, .panic)
  | (u, .ok uuid) =>
    if uuid = [] then (u, .ok none)
    else
      match lift u (mustFind u.store uuid) with
      | (u, .ok e) => openLink v u uuid e
      | (u, .err e) => (u, .err e)
      | (u, .panic) => (u, .panic)

/-- `openurl` is as the other commands on one entry, but for an error of `findOne` -/
theorem openurl_cases (v : Env) (u : Session) (q : Str) :
    (∃ u' e, oneEntry v u q none (openLink v) = (u', .err e) ∧ openurl v u q = (u', .ok none)) ∨
    openurl v u q = oneEntry v u q none (openLink v) := by
  unfold openurl oneEntry one
  match lift u (findOne v.lower v.ord v.ord' u.store q) with
  | (u', .err e) => exact .inl ⟨u', e, rfl, rfl⟩
  | (u', .panic) => exact .inr rfl
  | (u', .ok uuid) => exact .inr rfl

/-- `dump` (commands.go:1207-1223): the entry printed -/
def dump (v : Env) (u : Session) (q : Str) : Session × Res AppErr (Option Entry) :=
  oneEntry v u q none fun u _ e => (u, .ok (some e))

end Verif.App
