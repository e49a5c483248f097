import Verif.Txlogs.Model
import Verif.Fuzzy.Model
/-!
# Model of `blobformat/` and of `findOne` (uihelpers.go)

`Blobs` embeds `*txlogs.DB`, so every call maps a `DB` to the `DB` after the call and an outcome.
`ord` is the visiting order Go picks for `range` over a map, `now` the successive clock readings of a call,
`uuid` the uuid the generator returns.
-/
namespace Verif.Blob
open Verif Verif.Txlogs

/-! ## constants.go -/

def keyName : Str := b! "name"            -- constants.go:7
def keyUpdated : Str := b! "updated"      -- constants.go:8
def keyUser : Str := b! "user"            -- constants.go:11
def keyEmail : Str := b! "email"          -- constants.go:12
def keyURL : Str := b! "url"              -- constants.go:13
def keyPass : Str := b! "pass"            -- constants.go:14
def keyTwoFactor : Str := b! "totp"       -- constants.go:15
def keyNotes : Str := b! "notes"          -- constants.go:16
def keyLabels : Str := b! "labels"        -- constants.go:17
def keySync : Str := b! "sync"            -- constants.go:20
def keyPriv : Str := b! "privkey"         -- constants.go:21
def keyPub : Str := b! "pubkey"           -- constants.go:22
def keyKnownHosts : Str := b! "knownhosts" -- constants.go:23
def keyIV : Str := b! "iv"                -- constants.go:26
def keySalt : Str := b! "salt"            -- constants.go:27
def keyMKey : Str := b! "mkey"            -- constants.go:28
def syncPrefix : Str := b! "sync/"        -- constants.go:32
def userPrefix : Str := b! "user/"        -- constants.go:33

/-- `protectedKeys` (constants.go:56-68). -/
def protectedKeys : List Str := [keyTwoFactor, keyName, keyIV, keySalt, keyMKey, keyUpdated]

def comma : UInt8 := 44
def slash : UInt8 := 47

/-- Errors of the blob layer (blobs.go:18-27, 348, 408, 445). -/
inductive BErr where
  | tx (e : TxErr)
  | nameNotUnique
  | keyNotAllowed (k : Str)
  | uuidNotFound
  | indexOutOfRange
  | badTotp
  deriving Repr, DecidableEq

/-- State after the call, and what it returned. -/
abbrev Out (α : Type) := DB × Res BErr α

abbrev Order := Snapshot → Snapshot

/-! ## blob.go -/

/-- `Blob.Name` (blob.go:27-34); `none` = panic. -/
def name (e : Entry) : Option Str := e.get? keyName

/-- `b[key]`: the zero value "" for a missing key. -/
def val (e : Entry) (key : Str) : Str := (e.get? key).getD []

/-- `Blob.Get` (blob.go:38-46); `none` = panic. -/
def get (e : Entry) (key : Str) : Option Str :=
  if protectedKeys.any (fun p => equalFold key p) then none else some (val e key)

/-- `Blob.Labels` (blob.go:80-87). -/
def labels (e : Entry) : List Str :=
  let v := val e keyLabels
  if v = [] then [] else split comma v

/-- `Blob.Updated`/`getTimestamp` (blob.go:91-107): nanoseconds since 1970; `some none` = zero time, `none` = parse
error. -/
def updated (e : Entry) : Option (Option Int) :=
  match e.get? keyUpdated with
  | none => some none
  | some ts => (atoi ts).map some

/-! ## blobs.go -/

/-- `if err := b.UpdateSnapshot(); err != nil { return err }` followed by `k`. -/
def withSnapshot {α : Type} (s : DB) (k : DB → Out α) : Out α :=
  match s.updateSnapshot with
  | (s', some e) => (s', .err (.tx e))
  | (s', none) => k s'

/-- `touchUpdated` (blobs.go:506-508); `now 0` is read for the value, `now 1` by `Set`. -/
def touchUpdated (s : DB) (now : Nat → Int) (uuid : Str) : DB :=
  s.setKey (now 1) uuid keyUpdated (fmtInt (now 0))

/-- the uniqueness loop of `New` (blobs.go:315-320) and `Rename` (339-344): `none` = a nameless entry was met
first (panic in `Name`). -/
def nameTaken (nm : Str) : List (Str × Entry) → Option Bool
  | [] => some false
  | (_, e) :: rest =>
    match name e with
    | none => none
    | some n => if n = nm then some true else nameTaken nm rest

/-- `New` (blobs.go:310-330). -/
def new (ord : Order) (now : Nat → Int) (uuid : Str) (s : DB) (nm : Str) : Out Str :=
  withSnapshot s fun s =>
    match nameTaken nm (ord s.snapshot) with
    | none => (s, .panic)
    | some true => (s, .err .nameNotUnique)
    | some false =>
      let s := s.add (now 0) uuid
      let s := touchUpdated s (fun i => now (i + 1)) uuid
      (s.setKey (now 3) uuid keyName nm, .ok uuid)

/-- `Rename` (blobs.go:334-354). -/
def rename (ord : Order) (now : Nat → Int) (s : DB) (uuid newName : Str) : Out Unit :=
  withSnapshot s fun s =>
    match nameTaken newName (ord s.snapshot) with
    | none => (s, .panic)
    | some true => (s, .err .nameNotUnique)
    | some false =>
      match s.snapshot.get? uuid with
      | none => (s, .err .uuidNotFound)
      | some _ =>
        ((touchUpdated s now uuid).setKey (now 2) uuid keyName newName, .ok ())

/-- `Set` (blobs.go:360-370). -/
def set (now : Nat → Int) (s : DB) (uuid key value : Str) : Out Unit :=
  if protectedKeys.any (fun p => equalFold key p) then (s, .err (.keyNotAllowed key))
  else ((touchUpdated s now uuid).setKey (now 2) uuid key value, .ok ())

/-- `DeleteKey` (blobs.go:373-382). -/
def deleteKey (now : Nat → Int) (s : DB) (uuid key : Str) : Out Unit :=
  if key = keyName ∨ key = keyUpdated then (s, .err (.keyNotAllowed key))
  else ((touchUpdated s now uuid).deleteKey (now 2) uuid key, .ok ())

/-- `SetTwofactor` (blobs.go:393-414). `uri uuid k` is the URL built from a bare secret (398-403) and `otpOk`
whether `otp.NewKeyFromURL` accepts a URL; both libraries are outside the model. -/
def setTwofactor (uri : Str → Str → Str) (otpOk : Str → Bool) (now : Nat → Int) (s : DB)
    (uuid uriOrKey : Str) : Out Unit :=
  let u := if hasPrefix uriOrKey (b! "otpauth://") then uriOrKey else uri uuid uriOrKey
  if otpOk u then ((touchUpdated s now uuid).setKey (now 2) uuid keyTwoFactor u, .ok ())
  else (s, .err .badTotp)

/-- `Find` (blobs.go:182-192). -/
def find (s : DB) (uuid : Str) : Out (Option Entry) :=
  withSnapshot s fun s => (s, .ok (s.snapshot.get? uuid))

/-- `MustFind` (blobs.go:195-206). A nil map in the snapshot does not occur: entries are created by `make`
(txlogs.go:496). -/
def mustFind (s : DB) (uuid : Str) : Out Entry :=
  match find s uuid with
  | (s, .ok (some e)) => (s, .ok e)
  | (s, .ok none) => (s, .panic)
  | (s, .err e) => (s, .err e)
  | (s, .panic) => (s, .panic)

/-- `AddLabel` (blobs.go:417-434). -/
def addLabel (now : Nat → Int) (s : DB) (uuid label : Str) : Out Unit :=
  match mustFind s uuid with
  | (s, .panic) => (s, .panic)
  | (s, .err e) => (s, .err e)
  | (s, .ok e) =>
    let v := val e keyLabels
    let v' := if v = [] then label else join comma (split comma v ++ [label])
    set (fun i => now (i + 2)) (touchUpdated s now uuid) uuid keyLabels v'

/-- `RemoveLabel` (blobs.go:437-459). After the `copy` of line 453 the slice is the labels without the one at
`index`, followed by the old last label again; line 454 keeps only its last element. A negative index panics
in the slice expression. -/
def removeLabel (now : Nat → Int) (s : DB) (uuid : Str) (index : Int) : Out Unit :=
  match mustFind s uuid with
  | (s, .panic) => (s, .panic)
  | (s, .err e) => (s, .err e)
  | (s, .ok e) =>
    let ls := split comma (val e keyLabels)
    if index ≥ ls.length then (s, .err .indexOutOfRange)
    else if ls.length = 1 then (s.deleteKey (now 0) uuid keyLabels, .ok ())
    else if index < 0 then (s, .panic)
    else
      let copied := ls.eraseIdx index.toNat ++ ls.drop (ls.length - 1)
      let ls := copied.drop (copied.length - 1)
      ((touchUpdated s now uuid).setKey (now 2) uuid keyLabels (join comma ls), .ok ())

/-- `FindByName` (blobs.go:211-224): the loop; `none` = panic. -/
def findNameLoop (nm : Str) : List (Str × Entry) → Option (Option (Str × Entry))
  | [] => some none
  | (u, e) :: rest =>
    match name e with
    | none => none
    | some n => if n = nm then some (some (u, e)) else findNameLoop nm rest

def findByName (ord : Order) (s : DB) (nm : Str) : Out (Option (Str × Entry)) :=
  withSnapshot s fun s =>
    match findNameLoop nm (ord s.snapshot) with
    | none => (s, .panic)
    | some r => (s, .ok r)

/-- `FindUser` (blobs.go:227-229). -/
def findUser (ord : Order) (s : DB) (user : Str) : Out (Option (Str × Entry)) :=
  findByName ord s (userPrefix ++ user)

/-- `SearchResults` (blobs.go:44). A nil map and an empty one are not distinguished. -/
abbrev Results := GoMap Str Str

/-- the loops of `Search`, `SearchLabels`, `allEntries` and `Users`: every visited entry that `keep` accepts is
recorded with its name; `none` = panic. -/
def collect (keep : Entry → Option Bool) : List (Str × Entry) → Results → Option Results
  | [], acc => some acc
  | (u, e) :: rest, acc =>
    match keep e with
    | none => none
    | some false => collect keep rest acc
    | some true =>
      match name e with
      | none => none
      | some n => collect keep rest (acc.set u n)

/-- `fuzzy.Match(keyFrags[i], f)` for all fragments (blobs.go:119-123); the caller has checked that there are
enough `keyFrags`. -/
def fragsMatch (lower : Nat → Nat) : List Str → List Str → Option Bool
  | [], _ => some true
  | _ :: _, [] => none
  | f :: fs, k :: ks =>
    match Fuzzy.fuzzyMatch lower k f with
    | none => none
    | some false => some false
    | some true => fragsMatch lower fs ks

/-- the body of the `Search` loop (blobs.go:106-124). -/
def searchKeep (lower : Nat → Nat) (fragments : List Str) (e : Entry) : Option Bool :=
  match name e with
  | none => none
  | some nm =>
    match fragments with
    | [f] => Fuzzy.fuzzyMatch lower nm f
    | _ =>
      let keyFrags := split slash nm
      if keyFrags.length < fragments.length then some false
      else fragsMatch lower fragments keyFrags

/-- `Search` (blobs.go:88-130), with `allEntries` (245-256) for the empty query. -/
def search (lower : Nat → Nat) (ord : Order) (s : DB) (q : Str) : Out Results :=
  withSnapshot s fun s =>
    if s.snapshot = [] then (s, .ok [])
    else
      let keep := if q = [] then fun _ => some true else searchKeep lower (split slash q)
      match collect keep (ord s.snapshot) [] with
      | none => (s, .panic)
      | some r => (s, .ok r)

/-- the inner loop of `SearchLabels` (blobs.go:158-167): `found` after looking for `want`. -/
def countInner (n : Nat) (want : Str) : List Str → Nat → Nat
  | [], found => found
  | h :: hs, found =>
    if h ≠ want then countInner n want hs found
    else if found + 1 = n then found + 1
    else countInner n want hs (found + 1)

/-- the outer loop (blobs.go:157-168). -/
def countOuter (n : Nat) (have_ : List Str) : List Str → Nat → Nat
  | [], found => found
  | w :: ws, found => countOuter n have_ ws (countInner n w have_ found)

/-- the body of the `SearchLabels` loop (blobs.go:149-170). -/
def labelsKeep (ls : List Str) (e : Entry) : Option Bool :=
  let v := val e keyLabels
  if v = [] then some false
  else some (countOuter ls.length (split comma v) ls 0 = ls.length)

/-- `SearchLabels` (blobs.go:133-176). -/
def searchLabels (ord : Order) (s : DB) (ls : List Str) : Out Results :=
  withSnapshot s fun s =>
    if s.snapshot = [] then (s, .ok [])
    else
      let keep := if ls = [] then fun _ => some true else labelsKeep ls
      match collect keep (ord s.snapshot) [] with
      | none => (s, .panic)
      | some r => (s, .ok r)

/-- `IsUserEntry` (blobs.go:490-492). -/
def isUserEntry (nm : Str) : Bool := hasPrefix nm userPrefix

/-- `SplitUsername` (blobs.go:496-503). -/
def splitUsername (nm : Str) : Str :=
  match indexOf nm userPrefix with
  | none => []
  | some i => nm.drop (i + userPrefix.length)

/-- `Users` (blobs.go:285-305). -/
def users (ord : Order) (s : DB) : Out Results :=
  withSnapshot s fun s =>
    match collect (fun e => (name e).map isUserEntry) (ord s.snapshot) [] with
    | none => (s, .panic)
    | some r => (s, .ok r)

/-- `NewSync` (blobs.go:466-481): the retry loop, cut after `fuel` attempts (`none`). -/
def newSyncLoop (ord : Order) (now : Nat → Int) (uuid : Str) : Nat → DB → Str → Option (Out Str)
  | 0, _, _ => none
  | fuel + 1, s, nm =>
    match new ord now uuid s nm with
    | (s', .err .nameNotUnique) => newSyncLoop ord now uuid fuel s' (nm ++ b! "1")
    | r => some r

def newSync (ord : Order) (now : Nat → Int) (uuid : Str) (fuel : Nat) (s : DB) (kind : Str) :
    Option (Out Str) :=
  newSyncLoop ord now uuid fuel s (syncPrefix ++ kind)

/-- `NewUser` (blobs.go:485-487). -/
def newUser (ord : Order) (now : Nat → Int) (uuid : Str) (s : DB) (nm : Str) : Out Str :=
  new ord now uuid s (userPrefix ++ nm)

/-- the loop `for ok { name = name + "1"; _, ok = names[name] }` (blobs.go:67-70); one more attempt than there are
names is enough (`freshName_not_mem` in `Lemmas.lean`). -/
def freshName (names : List Str) : Nat → Str → Str
  | 0, nm => nm
  | fuel + 1, nm => if nm ++ b! "1" ∈ names then freshName names fuel (nm ++ b! "1") else nm ++ b! "1"

/-- the loop of `RenameDuplicates` (blobs.go:56-76). The error of `b.Set` (75) is ignored, as in the code.
`now` supplies three clock readings per renamed entry. `none` = panic. -/
def renameLoop : List (Str × Entry) → (Nat → Int) → List Str → GoMap Str Str → DB →
    Option (DB × GoMap Str Str)
  | [], _, _, renames, s => some (s, renames)
  | (u, e) :: rest, now, names, renames, s =>
    match name e with
    | none => none
    | some nm =>
      if nm ∈ names then
        let nm' := freshName names (names.length + 1) nm
        let s := touchUpdated s now u
        let s := (set (fun i => now (i + 2)) s u keyName nm').1
        renameLoop rest (fun i => now (i + 5)) names (renames.set nm nm') s
      else renameLoop rest now (nm :: names) renames s

/-- `RenameDuplicates` (blobs.go:48-79). -/
def renameDuplicates (ord : Order) (now : Nat → Int) (s : DB) : Out (GoMap Str Str) :=
  withSnapshot s fun s =>
    match renameLoop (ord s.snapshot) now [] [] s with
    | none => (s, .panic)
    | some (s, r) => (s, .ok r)

/-! ## uihelpers.go -/

/-- the exact-match loop of `findOne` (uihelpers.go:92-96). -/
def exactMatch (q : Str) : List (Str × Str) → Str
  | [] => []
  | (u, n) :: rest => if n = q then u else exactMatch q rest

/-- `findOne` (uihelpers.go:70-105): the uuid, or "" when nothing was selected; `ord'` is the visiting order of
the result map. -/
def findOne (lower : Nat → Nat) (ord : Order) (ord' : Results → Results) (s : DB) (q : Str) : Out Str :=
  match search lower ord s q with
  | (s, .err e) => (s, .err e)
  | (s, .panic) => (s, .panic)
  | (s, .ok entries) =>
    match ord' entries with
    | [] => (s, .ok [])
    | [(id, _)] => (s, .ok id)
    | es => (s, .ok (exactMatch q es))

/-! ## Sequences of calls -/

/-- The calls of the blob API that change the store, plus `read` for any of the lookups (they all start with
`UpdateSnapshot`). -/
inductive BOp where
  | new (uuid nm : Str)
  | newUser (uuid nm : Str)
  | newSync (uuid kind : Str)
  | rename (uuid nm : Str)
  | set (uuid key value : Str)
  | deleteKey (uuid key : Str)
  | setTwofactor (uuid uriOrKey : Str)
  | addLabel (uuid label : Str)
  | removeLabel (uuid : Str) (index : Int)
  | delete (uuid : Str)
  | read

/-- One call with the clock readings, map order and otp library behaviour it meets. -/
structure Call where
  op : BOp
  now : Nat → Int := fun _ => 0
  ord : Order := id
  uri : Str → Str → Str := fun _ k => k
  otpOk : Str → Bool := fun _ => true

/-- forget the returned value; `none` = panic -/
def fin {α : Type} (r : Out α) : Option DB :=
  match r.2 with
  | .panic => none
  | _ => some r.1

/-- State after a call; `none` = panic (for `newSync` also: still looping after more attempts than the log has
operations, which never happens, see C38). -/
def bstep (s : DB) (c : Call) : Option DB :=
  match c.op with
  | .new u nm => fin (new c.ord c.now u s nm)
  | .newUser u nm => fin (newUser c.ord c.now u s nm)
  | .newSync u k =>
    match newSync c.ord c.now u (s.log.length + 2) s k with
    | none => none
    | some r => fin r
  | .rename u nm => fin (rename c.ord c.now s u nm)
  | .set u k v => fin (set c.now s u k v)
  | .deleteKey u k => fin (deleteKey c.now s u k)
  | .setTwofactor u k => fin (setTwofactor c.uri c.otpOk c.now s u k)
  | .addLabel u l => fin (addLabel c.now s u l)
  | .removeLabel u i => fin (removeLabel c.now s u i)
  | .delete u => some (s.delete (c.now 0) u)
  | .read => some s.updateSnapshot.1

def brun (s : DB) : List Call → Option DB
  | [] => some s
  | c :: cs =>
    match bstep s c with
    | none => none
    | some s' => brun s' cs

end Verif.Blob
