import Verif.App.Session
/-!
# Model of the commands that change passwords and users (`commands.go`)

Every command maps a session to the session afterwards and an outcome. Random salts, ivs and keys, the clock, the uuid of a new
entry and what the user types are arguments. After an error or a panic the program exits without saving (main.go:100-107), so
the session returned with them is never used.
-/
namespace Verif.App
open Verif Verif.Txlogs Verif.Blob Verif.Crypt

/-- `MustFindUser` (blobs.go:232-243) -/
def mustFindUser (ord : Order) (s : DB) (user : Str) : Out (Str × Entry) :=
  match findUser ord s user with
  | (s, .panic) => (s, .panic)
  | (s, .err e) => (s, .err e)
  | (s, .ok none) => (s, .panic)
  | (s, .ok (some (uuid, e))) => if uuid = [] then (s, .panic) else (s, .ok (uuid, e))

/-- the three raw `Set`s that store a user record (commands.go:82-84, 128-130, 189-191, 265-267) -/
def setRecord (now : Nat → Int) (s : DB) (uuid salt iv mkey : Str) : DB :=
  ((s.setKey (now 0) uuid keySalt (hexEncode salt)).setKey (now 1) uuid keyIV (hexEncode iv)).setKey (now 2) uuid
    keyMKey (hexEncode mkey)

/-- What a command draws: clock readings, a salt, an iv, a new master key with its iv, and what the password prompt meets. -/
structure Draw where
  now : Nat → Int := fun _ => 0
  uuid : Str := []
  salt : Str := []
  iv : Str := []
  master : Str := []
  ivm : Str := []
  ent : Nat → Nat → UInt8 := fun _ _ => 0
  inp : Input := []

/-- wrap the master key for `key` and store the record of the user (commands.go:71-84, 173-191) -/
def storeUser (P : Prims) (ord : Order) (d : Draw) (u : Session) (user key salt : Str) : Session × Res AppErr Unit :=
  match mustFindUser ord u.store user with
  | (s, .panic) => ({ u with store := s }, .panic)
  | (s, .err e) => ({ u with store := s }, .err (.blob e))
  | (s, .ok (uuid, _)) =>
    match encryptMasterKey P 1 key u.creds.master d.iv with
    | .panic => ({ u with store := s }, .panic)
    | .err e => ({ u with store := s }, .err (.crypt e))
    | .ok (mkey, iv) => ({ u with store := setRecord d.now s uuid salt iv mkey }, .ok ())

/-- `passwd` (commands.go:51-89). The entry updated is that of the current user, whatever user was named. -/
def passwd (P : Prims) (ord : Order) (d : Draw) (u : Session) (user : Str) : Session × Res AppErr Unit :=
  match getPassword d.ent d.inp with
  | .panic => (u, .panic)
  | .err _ => (u, .err .aborted)
  | .ok pass =>
    if pass = [] then (u, .ok ())
    else
      match deriveKey P 1 pass d.salt with
      | .panic => (u, .panic)
      | .err e => (u, .err (.crypt e))
      | .ok (key, salt) =>
        let u := if u.creds.user = [] ∨ u.creds.user = user then
          { u with creds := { u.creds with pass := pass, key := key, salt := salt } } else u
        if u.creds.master = [] then (u, .ok ())
        else storeUser P ord d u u.creds.user key salt

/-- the end of `adduser` (commands.go:123-138) -/
def finishUser (P : Prims) (d : Draw) (u : Session) (uuid key salt : Str) : Session × Res AppErr Unit :=
  match encryptMasterKey P 1 key u.creds.master d.iv with
  | .panic => (u, .panic)
  | .err e => (u, .err (.crypt e))
  | .ok (mkey, iv) =>
    ({ u with store := setRecord (fun i => d.now (i + 4)) u.store uuid salt iv mkey }, .ok ())

/-- `adduser` (commands.go:91-139) -/
def adduser (P : Prims) (ord : Order) (d : Draw) (u : Session) (user : Str) : Session × Res AppErr Unit :=
  match newUser ord d.now d.uuid u.store user with
  | (s, .panic) => ({ u with store := s }, .panic)
  | (s, .err .nameNotUnique) => ({ u with store := s }, .ok ())
  | (s, .err e) => ({ u with store := s }, .err (.blob e))
  | (s, .ok uuid) =>
    let u := { u with store := s }
    if u.creds.master = [] then
      let u := { u with creds := { u.creds with master := d.master, ivm := d.ivm, user := user } }
      finishUser P d u uuid u.creds.key u.creds.salt
    else
      match getPassword d.ent d.inp with
      | .panic => (u, .panic)
      | .err _ => (u, .err .aborted)
      | .ok pass =>
        match deriveKey P 1 pass d.salt with
        | .panic => (u, .panic)
        | .err e => (u, .err (.crypt e))
        | .ok (key, salt) => finishUser P d u uuid key salt

/-- `rekey` (commands.go:141-197) -/
def rekey (P : Prims) (ord : Order) (d : Draw) (u : Session) (user : Str) : Session × Res AppErr Unit :=
  let pass : Res Unit Str := if user = [] then .ok u.creds.pass else getPassword d.ent d.inp
  match pass with
  | .panic => (u, .panic)
  | .err _ => (u, .err .aborted)
  | .ok pass =>
    if pass = [] then (u, .ok ())
    else
      match deriveKey P 1 pass d.salt with
      | .panic => (u, .panic)
      | .err e => (u, .err (.crypt e))
      | .ok (key, salt) =>
        let u := if user = [] then
          { u with creds := { u.creds with pass := pass, key := key, salt := salt } } else u
        if u.creds.master = [] then (u, .ok ())
        else storeUser P ord d u (if user = [] then u.creds.user else user) key salt

/-- the loop of `rekeyAll` (commands.go:239-270); `ds` holds what each round draws, `out` the printed names and passwords.
The key that is wrapped is `u.master`, the old one. -/
def rekeyLoop (P : Prims) : List (Str × Str) → (Nat → Draw) → Session → List (Str × Str) →
    Session × Res AppErr (List (Str × Str))
  | [], _, u, out => (u, .ok out)
  | (uuid, nm) :: rest, ds, u, out =>
    let username := splitUsername nm
    match genPassword ((ds 0).ent 0) 32 {} with
    | .panic => (u, .panic)
    | .err _ => (u, .err .genPassword)
    | .ok pass =>
      match deriveKey P 1 pass (ds 0).salt with
      | .panic => (u, .panic)
      | .err e => (u, .err (.crypt e))
      | .ok (key, salt) =>
        let u := if username = u.creds.user then
          { u with creds := { u.creds with pass := pass, key := key, salt := salt } } else u
        match encryptMasterKey P 1 key u.creds.master (ds 0).iv with
        | .panic => (u, .panic)
        | .err e => (u, .err (.crypt e))
        | .ok (mkey, iv) =>
          rekeyLoop P rest (fun i => ds (i + 1))
            { u with store := setRecord (ds 0).now u.store uuid salt iv mkey } (out ++ [(username, pass)])

/-- `rekeyAll` (commands.go:205-276): the session and what was printed (nothing when the command was refused). -/
def rekeyAll (P : Prims) (ord : Order) (ord' : Results → Results) (d : Draw) (ds : Nat → Draw) (u : Session) :
    Session × Res AppErr (List (Str × Str)) :=
  if u.creds.master = [] then (u, .ok [])
  else
    match getYesNo d.inp with
    | (none, _) => (u, .err .aborted)
    | (some false, _) => (u, .ok [])
    | (some true, _) =>
      match users ord u.store with
      | (s, .panic) => ({ u with store := s }, .panic)
      | (s, .err e) => ({ u with store := s }, .err (.blob e))
      | (s, .ok us) =>
        match rekeyLoop P (ord' us) ds { u with store := s } [] with
        | (u, .ok out) => ({ u with creds := { u.creds with master := d.master, ivm := d.ivm } }, .ok out)
        | r => r

/-- `deleteEntry` (commands.go:550-602). A prompt ended by the user (`ErrEnd`) counts as an empty line; `none` in the input is
that, an interrupt is not modelled (it ends the program without saving). -/
def deleteEntry (ord : Order) (now : Int) (inp : Input) (u : Session) (nm : Str) : Session × Res AppErr Unit :=
  match findByName ord u.store nm with
  | (s, .panic) => ({ u with store := s }, .panic)
  | (s, .err e) => ({ u with store := s }, .err (.blob e))
  | (s, .ok none) => ({ u with store := s }, .ok ())
  | (s, .ok (some (uuid, _))) =>
    let u := { u with store := s }
    if uuid = [] then (u, .ok ())
    else
      let deleteSelf : Bool := splitUsername nm ≠ [] ∧ splitUsername nm = u.creds.user
      let confirm (u : Session) : Session × Res AppErr Unit :=
        if ((prompt inp).1.getD []) ≠ nm then (u, .ok ())
        else
          let u := if deleteSelf then { u with creds := { u.creds with master := [], ivm := [] } } else u
          ({ u with store := u.store.delete now uuid }, .ok ())
      if deleteSelf then
        match users ord u.store with
        | (s, .panic) => ({ u with store := s }, .panic)
        | (s, .err e) => ({ u with store := s }, .err (.blob e))
        | (s, .ok us) => if us.length > 1 then ({ u with store := s }, .ok ()) else confirm { u with store := s }
      else confirm u

end Verif.App
