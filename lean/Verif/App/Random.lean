import Verif.App.Repl
/-!
# Model of the commands when the random source may fail

The other modules suppose that every request for random bytes is answered. Here each request may fail. A failure is the error
`none`; `some e` is an error of the ordinary model. The functions repeat those of `Verif.App.Input`, `Verif.Blob.Model`,
`Verif.App.Accounts`, `Verif.App.Commands`, `Verif.App.Repl` and `Verif.App.Session`, with the requests in the places where the
code makes them. Requests made by `sync`, by the ssh library and for the name of the temporary file of `edit` are not among them
(a failure of the last ends the command with a message, commands.go:848-853, which `Env.editor` covers); neither is the generation
of an ssh key, for which `Env.keys` already says whether it succeeded.
-/
namespace Verif.App
open Verif Verif.Txlogs Verif.Blob Verif.Crypt

/-- What a command draws when requests may fail: `none` = the request failed. The clock and the user always answer. -/
structure Rolls where
  now : Nat → Int := fun _ => 0
  uuid : Option Str := none
  salt : Option Str := none
  iv : Option Str := none
  master : Option Str := none
  ivm : Option Str := none
  ent : Nat → Option (Nat → UInt8) := fun _ => none
  inp : Input := []

/-- an ordinary outcome, where every request was answered -/
def asked {ε α : Type} : Res ε α → Res (Option ε) α
  | .ok a => .ok a
  | .err e => .err (some e)
  | .panic => .panic

/-- the same with the state reached -/
def asked2 {σ ε α : Type} (x : σ × Res ε α) : σ × Res (Option ε) α := (x.1, asked x.2)

/-- `genPassword` (passwd_gen.go:23-46): the requirements are checked before the bytes are requested. -/
def genPasswordR (ent : Option (Nat → UInt8)) (length : Int) (c : Classes) : Res (Option GenErr) Str :=
  if c.needLen > length then .err (some .impossible)
  else
    match ent with
    | none => .err none
    | some ent => asked (genPassword ent length c)

/-- the loop of `getPassword` (uihelpers.go:244-312): an error other than impossibility ends it (250-251) -/
def pwLoopR (ent : Nat → Option (Nat → UInt8)) : Nat → Nat → Bool → PwState → Input → Res (Option Unit) Str
  | 0, _, _, _, _ => .err (some ())
  | fuel + 1, i, regen, st, inp =>
    let next (st : PwState) (i : Nat) : Res (Option Unit) Str :=
      match choose st inp with
      | .ret pw => .ok pw
      | .fail => .err (some ())
      | .crash => .panic
      | .again regen st rest => pwLoopR ent fuel i regen st rest
    if regen then
      match genPasswordR (ent i) st.length st.classes with
      | .panic => .panic
      | .err none => .err none
      | .err (some _) => next { st with password := [], shown := false } (i + 1)
      | .ok pw => next { st with password := pw, shown := true } (i + 1)
    else next st i

/-- `getPassword` (uihelpers.go:223-313) -/
def getPasswordR (ent : Nat → Option (Nat → UInt8)) (inp : Input) : Res (Option Unit) Str :=
  pwLoopR ent (inp.length + 1) 0 true {} inp

/-- `DeriveKey` (crypto.go:242-260) -/
def deriveKeyR (P : Prims) (pass : Str) : Option Str → Res (Option CErr) (Str × Str)
  | none => .err none
  | some salt => asked (deriveKey P 1 pass salt)

/-- `EncryptMasterKey` (crypto_v1.go:167-206): the sizes are checked before the iv is requested. -/
def encryptMasterKeyR (P : Prims) (userKey master : Str) (iv : Option Str) : Res (Option CErr) (Str × Str) :=
  if master.length ≠ keySize then .err (some .masterSize)
  else if userKey.length ≠ keySize then .err (some .userKeySize)
  else
    match iv with
    | none => .err none
    | some iv => asked (encryptMasterKey P 1 userKey master iv)

/-- `New` (blobs.go:310-330) with `Add` (txlogs.go:83-87): the name is checked before the uuid is requested. -/
def newR (ord : Order) (now : Nat → Int) (uuid : Option Str) (s : DB) (nm : Str) : DB × Res (Option BErr) Str :=
  match s.updateSnapshot with
  | (s, some e) => (s, .err (some (.tx e)))
  | (s, none) =>
    match nameTaken nm (ord s.snapshot) with
    | none => (s, .panic)
    | some true => (s, .err (some .nameNotUnique))
    | some false =>
      match uuid with
      | none => (s, .err none)
      | some uuid =>
        let s := s.add (now 0) uuid
        let s := touchUpdated s (fun i => now (i + 1)) uuid
        (s.setKey (now 3) uuid keyName nm, .ok uuid)

/-- the retry loop of `NewSync` (blobs.go:466-481) -/
def newSyncLoopR (ord : Order) (now : Nat → Int) (uuid : Option Str) : Nat → DB → Str → Option (DB × Res (Option BErr) Str)
  | 0, _, _ => none
  | fuel + 1, s, nm =>
    match newR ord now uuid s nm with
    | (s', .err (some .nameNotUnique)) => newSyncLoopR ord now uuid fuel s' (nm ++ b! "1")
    | r => some r

/-- wrap the master key for `key` and store the record of the user (commands.go:71-84, 173-191) -/
def storeUserR (P : Prims) (ord : Order) (x : Rolls) (u : Session) (user key salt : Str) : Session × Res (Option AppErr) Unit :=
  match mustFindUser ord u.store user with
  | (s, .panic) => ({ u with store := s }, .panic)
  | (s, .err e) => ({ u with store := s }, .err (some (.blob e)))
  | (s, .ok (uuid, _)) =>
    match encryptMasterKeyR P key u.creds.master x.iv with
    | .panic => ({ u with store := s }, .panic)
    | .err none => ({ u with store := s }, .err none)
    | .err (some e) => ({ u with store := s }, .err (some (.crypt e)))
    | .ok (mkey, iv) => ({ u with store := setRecord x.now s uuid salt iv mkey }, .ok ())

/-- `passwd` (commands.go:51-89) -/
def passwdR (P : Prims) (ord : Order) (x : Rolls) (u : Session) (user : Str) : Session × Res (Option AppErr) Unit :=
  match getPasswordR x.ent x.inp with
  | .panic => (u, .panic)
  | .err none => (u, .err none)
  | .err (some _) => (u, .err (some .aborted))
  | .ok pass =>
    if pass = [] then (u, .ok ())
    else
      match deriveKeyR P pass x.salt with
      | .panic => (u, .panic)
      | .err none => (u, .err none)
      | .err (some e) => (u, .err (some (.crypt e)))
      | .ok (key, salt) =>
        let u := if u.creds.user = [] ∨ u.creds.user = user then
          { u with creds := { u.creds with pass := pass, key := key, salt := salt } } else u
        if u.creds.master = [] then (u, .ok ())
        else storeUserR P ord x u u.creds.user key salt

/-- the end of `adduser` (commands.go:123-138) -/
def finishUserR (P : Prims) (x : Rolls) (u : Session) (uuid key salt : Str) : Session × Res (Option AppErr) Unit :=
  match encryptMasterKeyR P key u.creds.master x.iv with
  | .panic => (u, .panic)
  | .err none => (u, .err none)
  | .err (some e) => (u, .err (some (.crypt e)))
  | .ok (mkey, iv) =>
    ({ u with store := setRecord (fun i => x.now (i + 4)) u.store uuid salt iv mkey }, .ok ())

/-- `adduser` (commands.go:91-139). When no master key can be made the command ends without an error (107-110), and what was
done to the store stays; `newMasterKeyV1` (crypto_v1.go:19-30) then returned no master key. -/
def adduserR (P : Prims) (ord : Order) (x : Rolls) (u : Session) (user : Str) : Session × Res (Option AppErr) Unit :=
  match newR ord x.now x.uuid u.store (userPrefix ++ user) with
  | (s, .panic) => ({ u with store := s }, .panic)
  | (s, .err none) => ({ u with store := s }, .err none)
  | (s, .err (some .nameNotUnique)) => ({ u with store := s }, .ok ())
  | (s, .err (some e)) => ({ u with store := s }, .err (some (.blob e)))
  | (s, .ok uuid) =>
    let u := { u with store := s }
    if u.creds.master = [] then
      match x.master, x.ivm with
      | some master, some ivm =>
        let u := { u with creds := { u.creds with master := master, ivm := ivm, user := user } }
        finishUserR P x u uuid u.creds.key u.creds.salt
      | _, _ => ({ u with creds := { u.creds with master := [], ivm := [] } }, .ok ())
    else
      match getPasswordR x.ent x.inp with
      | .panic => (u, .panic)
      | .err none => (u, .err none)
      | .err (some _) => (u, .err (some .aborted))
      | .ok pass =>
        match deriveKeyR P pass x.salt with
        | .panic => (u, .panic)
        | .err none => (u, .err none)
        | .err (some e) => (u, .err (some (.crypt e)))
        | .ok (key, salt) => finishUserR P x u uuid key salt

/-- `rekey` (commands.go:141-197) -/
def rekeyR (P : Prims) (ord : Order) (x : Rolls) (u : Session) (user : Str) : Session × Res (Option AppErr) Unit :=
  let pass : Res (Option Unit) Str := if user = [] then .ok u.creds.pass else getPasswordR x.ent x.inp
  match pass with
  | .panic => (u, .panic)
  | .err none => (u, .err none)
  | .err (some _) => (u, .err (some .aborted))
  | .ok pass =>
    if pass = [] then (u, .ok ())
    else
      match deriveKeyR P pass x.salt with
      | .panic => (u, .panic)
      | .err none => (u, .err none)
      | .err (some e) => (u, .err (some (.crypt e)))
      | .ok (key, salt) =>
        let u := if user = [] then
          { u with creds := { u.creds with pass := pass, key := key, salt := salt } } else u
        if u.creds.master = [] then (u, .ok ())
        else storeUserR P ord x u (if user = [] then u.creds.user else user) key salt

/-- the loop of `rekeyAll` (commands.go:239-270) -/
def rekeyLoopR (P : Prims) : List (Str × Str) → (Nat → Rolls) → Session → List (Str × Str) →
    Session × Res (Option AppErr) (List (Str × Str))
  | [], _, u, out => (u, .ok out)
  | (uuid, nm) :: rest, xs, u, out =>
    let username := splitUsername nm
    match genPasswordR ((xs 0).ent 0) 32 {} with
    | .panic => (u, .panic)
    | .err none => (u, .err none)
    | .err (some _) => (u, .err (some .genPassword))
    | .ok pass =>
      match deriveKeyR P pass (xs 0).salt with
      | .panic => (u, .panic)
      | .err none => (u, .err none)
      | .err (some e) => (u, .err (some (.crypt e)))
      | .ok (key, salt) =>
        let u := if username = u.creds.user then
          { u with creds := { u.creds with pass := pass, key := key, salt := salt } } else u
        match encryptMasterKeyR P key u.creds.master (xs 0).iv with
        | .panic => (u, .panic)
        | .err none => (u, .err none)
        | .err (some e) => (u, .err (some (.crypt e)))
        | .ok (mkey, iv) =>
          rekeyLoopR P rest (fun i => xs (i + 1))
            { u with store := setRecord (xs 0).now u.store uuid salt iv mkey } (out ++ [(username, pass)])

/-- `rekeyAll` (commands.go:205-276): the new master key is requested before anything is changed (224-227). -/
def rekeyAllR (P : Prims) (ord : Order) (ord' : Results → Results) (x : Rolls) (xs : Nat → Rolls) (u : Session) :
    Session × Res (Option AppErr) (List (Str × Str)) :=
  if u.creds.master = [] then (u, .ok [])
  else
    match getYesNo x.inp with
    | (none, _) => (u, .err (some .aborted))
    | (some false, _) => (u, .ok [])
    | (some true, _) =>
      match x.master, x.ivm with
      | some master, some ivm =>
        match users ord u.store with
        | (s, .panic) => ({ u with store := s }, .panic)
        | (s, .err e) => ({ u with store := s }, .err (some (.blob e)))
        | (s, .ok us) =>
          match rekeyLoopR P (ord' us) xs { u with store := s } [] with
          | (u, .ok out) => ({ u with creds := { u.creds with master := master, ivm := ivm } }, .ok out)
          | r => r
      | _, _ => (u, .err none)

/-- `Do` (txlogs.go:173-182) around a command body -/
def doCmdR (u : Session) (f : Session → Session × Res (Option AppErr) Unit) : Session × Res (Option AppErr) Unit :=
  match f { u with store := u.store.begin } with
  | (u, .panic) => (u, .panic)
  | (u, .err e) =>
    match u.store.rollback with
    | some s => ({ u with store := s }, .err e)
    | none => (u, .panic)
  | (u, .ok ()) =>
    match u.store.commit with
    | some s => ({ u with store := s }, .ok ())
    | none => (u, .panic)

/-- `addNew` (commands.go:484-524) -/
def addNewR (v : Env) (x : Rolls) (u : Session) (nm : Str) : Session × Res (Option AppErr) Unit :=
  doCmdR u fun u =>
    match newR v.ord x.now x.uuid u.store nm with
    | (s, .panic) => ({ u with store := s }, .panic)
    | (s, .err none) => ({ u with store := s }, .err none)
    | (s, .err (some .nameNotUnique)) => ({ u with store := s }, .ok ())
    | (s, .err (some e)) => ({ u with store := s }, .err (some (.blob e)))
    | (s, .ok uuid) =>
      let u := { u with store := s }
      match prompt x.inp with
      | (none, _) => (u, .err (some .aborted))
      | (some email, inp) =>
        match prompt inp with
        | (none, _) => (u, .err (some .aborted))
        | (some user, inp) =>
          match getPasswordR x.ent inp with
          | .panic => (u, .panic)
          | .err none => (u, .err none)
          | .err (some _) => (u, .err (some .aborted))
          | .ok pass =>
            let s := setNonEmpty s (x.now 4) uuid keyUser user
            let s := setNonEmpty s (x.now 5) uuid keyEmail email
            let s := setNonEmpty s (x.now 6) uuid keyPass pass
            ({ u with store := s }, .ok ())

/-- `addSCPEntry` (commands.go:355-469) -/
def addSCPEntryR (v : Env) (x : Rolls) (u : Session) (uuid : Str) : Session × Res (Option AppErr) Str :=
  match getString x.inp with
  | (none, _) => (u, .err (some .aborted))
  | (some user, inp) =>
    match getString inp with
    | (none, _) => (u, .err (some .aborted))
    | (some host, inp) =>
      match askPort inp with
      | (none, _) => (u, .err (some .aborted))
      | (some port, inp) =>
        match getString inp with
        | (none, _) => (u, .err (some .aborted))
        | (some path, inp) =>
          match getMenuChoice 3 inp with
          | (none, _) => (u, .err (some .aborted))
          | (some choice, inp) =>
            if choice = 2 then
              match getPasswordR x.ent inp with
              | .panic => (u, .panic)
              | .err none => (u, .err none)
              | .err (some _) => (u, .err (some .aborted))
              | .ok pass => (u, .ok (v.scpUrl user host port path (some pass)))
            else
              match v.keys with
              | none => (u, .ok (v.scpUrl user host port path none))
              | some (priv, pub) =>
                let s := (Blob.set (fun i => x.now (i + 4)) u.store uuid keyPriv priv).1
                let s := if choice = 0 then (Blob.set (fun i => x.now (i + 7)) s uuid keyPub pub).1
                  else s.setKey (x.now 7) uuid keyPub pub
                ({ u with store := s }, .ok (v.scpUrl user host port path none))

/-- the end of `addSync` (commands.go:338-351), where nothing is requested any more -/
def endSync (x : Rolls) (u : Session) (uuid uri : Str) : Session × Res AppErr Unit :=
  let s := (u.store.setKey (x.now 10) uuid keySync (b! "true")).setKey (x.now 11) uuid keyURL uri
  match lift { u with store := s } (find s uuid) with
  | (u, .panic) => (u, .panic)
  | (u, .err e) => (u, .err e)
  | (u, .ok e) =>
    match e.bind name with
    | none => (u, .panic)
    | some _ => (u, .ok ())

/-- `addSync` (commands.go:294-353) -/
def addSyncR (v : Env) (x : Rolls) (u : Session) (kind : Str) : Session × Res (Option AppErr) Unit :=
  if kind ≠ syncSCP ∧ kind ≠ syncFile then (u, .ok ())
  else
    doCmdR u fun u =>
      match newSyncLoopR v.ord x.now x.uuid (u.store.log.length + 1) u.store (syncPrefix ++ kind) with
      | none => (u, .panic)
      | some (s, .panic) => ({ u with store := s }, .panic)
      | some (s, .err none) => ({ u with store := s }, .err none)
      | some (s, .err (some e)) => ({ u with store := s }, .err (some (.blob e)))
      | some (s, .ok uuid) =>
        let u := { u with store := s }
        if kind = syncFile then
          match getString x.inp with
          | (none, _) => (u, .err (some .aborted))
          | (some file, _) =>
            match v.fileUrl file with
            | none => (u, .err (some .aborted))
            | some uri => asked2 (endSync x u uuid uri)
        else
          match addSCPEntryR v x u uuid with
          | (u, .panic) => (u, .panic)
          | (u, .err e) => (u, .err e)
          | (u, .ok uri) => asked2 (endSync x u uuid uri)

/-- `addNewInterruptible`, `addSyncInterruptible` (commands.go:282-292, 471-482): only the end of input is forgiven -/
def interruptibleR (v : Env) : Res (Option AppErr) Unit → Res (Option AppErr) Unit
  | .err (some .aborted) => if v.ctrlC then .err (some .aborted) else .ok ()
  | r => r

/-- the surroundings of a command that requests nothing -/
def unasked (v : Env) (x : Rolls) : Env := { v with d := { now := x.now, inp := x.inp }, ds := fun _ => {} }

/-- `set` (commands.go:778-831) -/
def setCmdR (v : Env) (x : Rolls) (u : Session) (q key value : Str) : Session × Res (Option AppErr) Unit :=
  if key = keyPass ∧ value = [] then
    match lift u (findOne v.lower v.ord v.ord' u.store q) with
    | (u, .err e) => (u, .err (some e))
    | (u, .panic) => (u, .panic)
    | (u, .ok uuid) =>
      if uuid = [] then (u, .ok ())
      else
        match getPasswordR x.ent x.inp with
        | .panic => (u, .panic)
        | .err none => (u, .err none)
        | .err (some _) => (u, .err (some .aborted))
        | .ok pw => asked2 (lift_ u (Blob.set x.now u.store uuid key pw))
  else asked2 (setCmd (unasked v x) u q key value)

/-- put a session back -/
def backR {α : Type} (r : Repl) : Session × Res (Option AppErr) α → Repl × Res (Option AppErr) Bool
  | (u, .ok _) => ({ r with u := u }, .ok false)
  | (u, .err e) => ({ r with u := u }, .err e)
  | (u, .panic) => ({ r with u := u }, .panic)

/-- the commands that are not permitted in a read-only session (repl.go:187-280, 333-412, 430-460, 501-520) -/
def execWriteR (P : Prims) (C : Codec) (v : Env) (x : Rolls) (xs : Nat → Rolls) (cmd : Str) (args : List Str) (r : Repl) :
    Repl × Res (Option AppErr) Bool :=
  if cmd = b! "passwd" then backR r (passwdR P v.ord x r.u (args.head?.getD []))
  else if cmd = b! "adduser" then
    match args with
    | [] => (r, .ok false)
    | user :: _ => backR r (adduserR P v.ord x r.u user)
  else if cmd = b! "rekey" then backR r (rekeyR P v.ord x r.u (args.head?.getD []))
  else if cmd = b! "rekeyall" then backR r (rekeyAllR P v.ord v.ord' x xs r.u)
  else if cmd = b! "add" then
    match args with
    | [] => (r, .ok false)
    | nm :: _ => backR r ((fun y => (y.1, interruptibleR v y.2)) (addNewR v x r.u nm))
  else if cmd = b! "set" then
    match setArgs r.ctx args with
    | none => (r, .ok false)
    | some (q, k, value) => backR r (setCmdR v x r.u q k value)
  else if cmd = b! "addsync" then
    match args with
    | [] => (r, .ok false)
    | kind :: _ => backR r ((fun y => (y.1, interruptibleR v y.2)) (addSyncR v x r.u kind))
  else asked2 (execWrite P C (unasked v x) cmd args r)

/-- one line (repl.go:145-175) -/
def runLineR (P : Prims) (C : Codec) (v : Env) (x : Rolls) (xs : Nat → Rolls) (line : Str) (r : Repl) :
    Repl × Res (Option AppErr) Bool :=
  match parseLine line with
  | none => (r, .ok false)
  | some (cmd, args) =>
    match readOnlyFlag cmd with
    | none => (r, .ok false)
    | some true => asked2 (execRead (unasked v x) cmd args r)
    | some false => if r.u.readOnly then (r, .ok false) else execWriteR P C v x xs cmd args r

/-- a line (or `none` when the prompt fails), its surroundings, and what the random source answers -/
structure TurnR where
  line : Option Str
  v : Env
  x : Rolls
  xs : Nat → Rolls

/-- `repl.run` (repl.go:127-179) -/
def runReplR (P : Prims) (C : Codec) : List TurnR → Repl → Repl × Res (Option AppErr) Unit
  | [], r => (r, .ok ())
  | t :: rest, r =>
    match t.line with
    | none => (r, if t.v.ctrlC then .err (some .aborted) else .ok ())
    | some line =>
      match runLineR P C t.v t.x t.xs line r with
      | (r, .ok false) => runReplR P C rest r
      | (r, .ok true) => (r, .ok ())
      | (r, .err e) => (r, .err e)
      | (r, .panic) => (r, .panic)

/-- `Encrypt` (crypto.go:131-150, crypto_v1.go:38-68): only the file of a single user needs an iv, after the checks. -/
def encryptR (P : Prims) (p : Params) (iv : Option Str) (pt : Str) : Res (Option CErr) Str :=
  if ¬ p.validate then .err (some .badParams)
  else if p.nUsers = 0 then
    match p.keys, p.salts with
    | key :: _, salt :: _ =>
      if key.length ≠ keySize then .err (some .invalidKey)
      else if salt.length ≠ saltSize then .err (some .invalidSalt)
      else
        match iv with
        | none => .err none
        | some iv => asked (encryptSingle P p iv pt)
    | _, _ => .panic
  else asked (encryptMulti P p pt)

/-- `saveBlob` (main.go:252-273) -/
def saveBlobR (P : Prims) (C : Codec) (ord : Order) (ord' : Results → Results) (iv : Option Str) (u : Session) :
    Res (Option AppErr) (Option Str) :=
  if u.readOnly then .ok none
  else
    match u.store.save with
    | .error e => .err (some (.tx e))
    | .ok _ =>
      match (makeParams P ord ord' u.creds u.store).2 with
      | .panic => .panic
      | .err e => .err (some e)
      | .ok p =>
        match encryptR P p iv (C.marshal u.store) with
        | .panic => .panic
        | .err none => .err none
        | .err (some e) => .err (some (.crypt e))
        | .ok f => .ok (some f)

/-- `main` from the opened file to the end (main.go:92-122) -/
def sessionR (P : Prims) (C : Codec) (auto : Bool) (v v' : Env) (iv : Option Str) (turns : List TurnR) (u : Session) :
    Repl × Res (Option AppErr) (Option Str) :=
  match autoSync P C v auto { u := u } with
  | (r, .err e) => (r, .err (some e))
  | (r, .panic) => (r, .panic)
  | (r, .ok ()) =>
    match runReplR P C turns r with
    | (r, .err e) => (r, .err e)
    | (r, .panic) => (r, .panic)
    | (r, .ok ()) =>
      match autoSync P C v' (auto && r.u.startTx ≠ r.u.store.log.length) r with
      | (r, .err e) => (r, .err (some e))
      | (r, .panic) => (r, .panic)
      | (r, .ok ()) => (r, saveBlobR P C v'.ord v'.ord' iv r.u)

/-- `loadBlob` for a new file (main.go:158-184) -/
def createFileR (P : Prims) (history : Option Int) (salt : Option Str) (inp : Input) : Res (Option AppErr) Session × Input :=
  match prompt inp with
  | (none, inp) => (.err (some .aborted), inp)
  | (some pwd, inp) =>
    if pwd = [] then (.err (some .emptyPassword), inp)
    else
      match prompt inp with
      | (none, inp) => (.err (some .aborted), inp)
      | (some verify, inp) =>
        if pwd ≠ verify then (.err (some .noMatch), inp)
        else
          match deriveKeyR P pwd salt with
          | .ok (key, salt) =>
            (.ok { creds := { key := key, salt := salt }, store := {}, readOnly := history.isSome, startTx := 0 }, inp)
          | .err none => (.err none, inp)
          | .err (some e) => (.err (some (.crypt e)), inp)
          | .panic => (.panic, inp)

end Verif.App
