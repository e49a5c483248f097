import Verif.App.Session
import Verif.App.Hosts
/-!
# Model of `sync` (sync.go)

The other machines are a parameter (`World`): what a pull or push of an entry yields is an arbitrary function of the entry, its
uuid and the user input. `dupeCheck` of the code is never appended to (sync.go:69, 94-99), so the check for duplicate remotes
never finds one and is left out. Output is not modelled.
-/
namespace Verif.App
open Verif Verif.Txlogs Verif.Blob Verif.Crypt

/-- what reading a remote file gives -/
inductive Pulled where
  | bytes (ct : Str)
  | notFound
  | failed
  deriving Repr, DecidableEq

/-- Everything outside the program that `sync` talks to. The string next to the outcome is the new known-hosts line, empty if
there is none; `none` instead of an outcome is a crash (sync.go:380 on a url without path, the host key callback). -/
structure World where
  /-- `url.Parse(u)`: its scheme, `none` if it does not parse -/
  scheme : Str → Option Str
  /-- `sshPull` (sync.go:333-349) -/
  sshPull : Str → Entry → Input → Option (Pulled × Str) × Input
  /-- `ioutil.ReadFile` of the path of the url (sync.go:276-280) -/
  readFile : Str → Entry → Pulled
  /-- `sshPush` (sync.go:351-367): whether it worked -/
  sshPush : Str → Entry → Str → Input → Option (Bool × Str) × Input
  /-- `ioutil.WriteFile` (sync.go:299-300): whether it worked -/
  writeFile : Str → Entry → Str → Bool

def syncSCP : Str := b! "scp"    -- commands.go:47
def syncFile : Str := b! "file"  -- commands.go:48

/-- `collectSyncs` (sync.go:225-261); it never returns an error. -/
def isSync (w : World) (e : Entry) : Bool :=
  val e keySync = b! "true" && val e keyName ≠ [] && val e keyURL ≠ [] &&
    (w.scheme (val e keyURL) = some syncSCP || w.scheme (val e keyURL) = some syncFile)

def collectSyncs (w : World) (ord : Order) (s : DB) : List Str :=
  ((ord s.snapshot).filter (fun p => isSync w p.2)).map Prod.fst

/-- `pullBlob` (sync.go:264-288). A url that does not parse leaves `uri` nil, which crashes; any other scheme falls through the
`switch` and gives an empty file. -/
def pullBlob (w : World) (uuid : Str) (e : Entry) (inp : Input) : Option (Pulled × Str) × Input :=
  match w.scheme (val e keyURL) with
  | none => (none, inp)
  | some sc =>
    if sc = syncSCP then w.sshPull uuid e inp
    else if sc = syncFile then (some (w.readFile uuid e, []), inp)
    else (some (.bytes [], []), inp)

/-- `pushBlob` (sync.go:291-304) -/
def pushBlob (w : World) (uuid : Str) (e : Entry) (ct : Str) (inp : Input) : Option (Bool × Str) × Input :=
  match w.scheme (val e keyURL) with
  | none => (none, inp)
  | some sc =>
    if sc = syncSCP then w.sshPush uuid e ct inp
    else if sc = syncFile then (some (w.writeFile uuid e ct, []), inp)
    else (some (true, []), inp)

/-- one turn of the loop of `decryptBlob` (sync.go:310-328): the end of the loop, or a question -/
inductive Try where
  | done (r : Res CErr (Option (Str × Str × Params × Str)))
  | askUser
  | askPass

def tryDecrypt (P : Prims) (c : Creds) (ct user pass : Str) : Try :=
  match decrypt P user pass (orNil c.key) c.salt ct with
  | .panic => .done .panic
  | .ok (_, p, pt) => .done (.ok (some (user, pass, p, pt)))
  | .err e =>
    if e = .needUser ∨ e = .unknownUser then .askUser
    else if e = .wrongPassphrase then .askPass
    else .done (.err e)

/-- `decryptBlob` (sync.go:306-331): `ok none` = the user gave up (nil plaintext, nil error). `user` and `pass` are what is
tried, `c` holds the cached key and salt. -/
def decryptBlob (P : Prims) (c : Creds) (ct user pass : Str) : Input → Res CErr (Option (Str × Str × Params × Str)) × Input
  | [] =>
    match tryDecrypt P c ct user pass with
    | .done r => (r, [])
    | _ => (.ok none, [])
  | none :: rest =>
    match tryDecrypt P c ct user pass with
    | .done r => (r, none :: rest)
    | _ => (.ok none, rest)
  | some line :: rest =>
    match tryDecrypt P c ct user pass with
    | .done r => (r, some line :: rest)
    | .askUser => decryptBlob P c ct line pass rest
    | .askPass => if line = [] then (.ok none, rest) else decryptBlob P c ct user line rest

/-- the check for changes (sync.go:119-121); `none`: index out of range -/
def noChanges (log loc : List Tx) : Option Bool :=
  if log.length ≠ loc.length then some false
  else
    match log.head?, loc.head?, log.getLast?, loc.getLast? with
    | some a, some b, some c, some d => some (a.time = b.time ∧ c.time = d.time)
    | _, _, _, _ => none

/-- what became of one remote -/
inductive Fate where
  | skip                     -- `syncs[i] = ""`
  | absent                   -- not found: nothing to merge, but pushed to
  | merge (r : Remote)
  deriving Repr, DecidableEq

/-- one turn of the loop over the remotes (sync.go:73-132): its fate and the new known-hosts line; `none`: crash -/
def pullOne (P : Prims) (C : Codec) (w : World) (u : Session) (uuid : Str) (inp : Input) : Option (Fate × Str) × Input :=
  let e := (u.store.snapshot.get? uuid).getD []
  match pullBlob w uuid e inp with
  | (none, inp) => (none, inp)
  | (some (.failed, h), inp) => (some (.skip, h), inp)
  | (some (.notFound, h), inp) => (some (.absent, h), inp)
  | (some (.bytes ct, h), inp) =>
    match decryptBlob P u.creds ct u.creds.user u.creds.pass inp with
    | (.panic, inp) => (none, inp)
    | (.err _, inp) => (some (.skip, h), inp)
    | (.ok none, inp) => (some (.skip, h), inp)
    | (.ok (some (user, pass, p, pt)), inp) =>
      if pt = [] then (some (.skip, h), inp)
      else
        match C.loadLog pt with
        | .panic => (none, inp)
        | .err _ => (some (.skip, h), inp)
        | .ok log =>
          match noChanges log u.store.log with
          | none => (none, inp)
          | some true => (some (.skip, h), inp)
          | some false =>
            match userSlot p.keys p.user, userSlot p.salts p.user with
            | some key, some salt =>
              (some (.merge { name := val e keyName
                              creds := { user := user, pass := pass, key := key, salt := salt
                                         master := p.master.getD [], ivm := p.ivm.getD [] }
                              log := log }, h), inp)
            | _, _ => (none, inp)

/-- the loop over the remotes (sync.go:71-133): fates and new known-hosts lines -/
def pullAll (P : Prims) (C : Codec) (w : World) (u : Session) : List Str → Input → Option (List (Str × Fate × Str)) × Input
  | [], inp => (some [], inp)
  | uuid :: rest, inp =>
    match pullOne P C w u uuid inp with
    | (none, inp) => (none, inp)
    | (some (f, h), inp) =>
      match pullAll P C w u rest inp with
      | (none, inp) => (none, inp)
      | (some l, inp) => (some ((uuid, f, h) :: l), inp)

/-- `blobs` -/
def remotes : List (Str × Fate × Str) → List Remote
  | [] => []
  | (_, .merge r, _) :: l => r :: remotes l
  | _ :: l => remotes l

/-- `hosts`: a map, so a later line for the same uuid replaces an earlier one -/
def newHosts : List (Str × Fate × Str) → Results → Results
  | [], m => m
  | (uuid, _, h) :: l, m => newHosts l (if h = [] then m else m.set uuid h)

/-- what is left of `syncs`: the non-empty ones are pushed to -/
def targets : List (Str × Fate × Str) → List Str
  | [] => []
  | (_, .skip, _) :: l => targets l
  | (uuid, _, _) :: l => if uuid = [] then targets l else uuid :: targets l

/-- the pushing loop (sync.go:176-196): the uuids that were pushed to, whether that worked, and the new known-hosts lines; the
flag tells whether the loop crashed after these. -/
def pushAll (w : World) (s : DB) (ct : Str) : List Str → Results → Input → List (Str × Bool) × Bool × Results × Input
  | [], m, inp => ([], false, m, inp)
  | uuid :: rest, m, inp =>
    match pushBlob w uuid ((s.snapshot.get? uuid).getD []) ct inp with
    | (none, inp) => ([], true, m, inp)
    | (some (ok, h), inp) =>
      let (done, crash, m, inp) := pushAll w s ct rest (if h = [] then m else m.set uuid h) inp
      ((uuid, ok) :: done, crash, m, inp)

/-- What `sync` did: the session afterwards, how it ended, and what was sent to which remote, with success or not. -/
structure Synced where
  session : Session
  result : Res AppErr Unit
  sent : Str := []
  pushed : List (Str × Bool) := []
  rest : Input := []

/-- random and environment choices during `sync` -/
structure SyncEnv where
  now : Nat → Int := fun _ => 0
  now' : Nat → Int := fun _ => 0
  iv : Str := []
  ord : Order := id
  ord' : Results → Results := id
  ordH : Results → Results := id

/-- the part after the new log is in place (sync.go:153-202) -/
def pushBack (P : Prims) (C : Codec) (w : World) (v : SyncEnv) (push : Bool) (hosts : Results) (ts : List Str) (u : Session)
    (inp : Input) : Synced :=
  match saveHosts v.now u.store (v.ordH hosts) with
  | (s, some e) => { session := { u with store := s }, result := .err (.tx e), rest := inp }
  | (s, none) =>
    if push = false then { session := { u with store := s }, result := .ok (), rest := inp }
    else
      match sealFile P C v.ord v.ord' v.iv u.creds s with
      | (s, .panic) => { session := { u with store := s }, result := .panic, rest := inp }
      | (s, .err e) => { session := { u with store := s }, result := .err e, rest := inp }
      | (s, .ok ct) =>
        match pushAll w s ct ts [] inp with
        | (done, true, _, inp) => { session := { u with store := s }, result := .panic, sent := ct, pushed := done, rest := inp }
        | (done, false, hosts, inp) =>
          match saveHosts v.now' s (v.ordH hosts) with
          | (s, some e) => { session := { u with store := s }, result := .err (.tx e), sent := ct, pushed := done, rest := inp }
          | (s, none) => { session := { u with store := s }, result := .ok (), sent := ct, pushed := done, rest := inp }

/-- from the list of remotes on (sync.go:66-202) -/
def syncWith (P : Prims) (C : Codec) (w : World) (v : SyncEnv) (push : Bool) (u : Session) (syncs : List Str) (inp : Input) :
    Synced :=
  match pullAll P C w u syncs inp with
  | (none, inp) => { session := u, result := .panic, rest := inp }
  | (some l, inp) =>
    match mergeBlobs v.ord u.creds u.store.log (remotes l) inp with
    | (.panic, inp) => { session := u, result := .panic, rest := inp }
    | (.err _, inp) => { session := u, result := .ok (), rest := inp }
    | (.ok m, inp) =>
      match ({ u.store.resetSnapshot with log := m.log } : DB).updateSnapshot with
      | (s, some _) => { session := { u with creds := m.creds, store := s }, result := .err .poisoned, rest := inp }
      | (s, none) => pushBack P C w v push (newHosts l []) (targets l) { u with creds := m.creds, store := s } inp

/-- `sync` (sync.go:40-203); its parameter `auto` is not used. -/
def sync (P : Prims) (C : Codec) (w : World) (v : SyncEnv) (nm : Str) (push : Bool) (u : Session) (inp : Input) : Synced :=
  match u.store.updateSnapshot with
  | (s, some e) => { session := { u with store := s }, result := .err (.tx e), rest := inp }
  | (s, none) =>
    if nm ≠ [] then
      match findByName v.ord s nm with
      | (s, .panic) => { session := { u with store := s }, result := .panic, rest := inp }
      | (s, .err e) => { session := { u with store := s }, result := .err (.blob e), rest := inp }
      | (s, .ok none) => { session := { u with store := s }, result := .ok (), rest := inp }
      | (s, .ok (some (uuid, _))) =>
        if uuid = [] then { session := { u with store := s }, result := .ok (), rest := inp }
        else syncWith P C w v push { u with store := s } [uuid] inp
    else syncWith P C w v push { u with store := s } (collectSyncs w v.ord s) inp

end Verif.App
