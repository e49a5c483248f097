import Verif.App.Session
import Verif.App.Accounts
import Verif.Csv.Model
import Verif.Go.Sort
/-!
# Model of `export.go` and `import.go`
-/
namespace Verif.App
open Verif Verif.Txlogs Verif.Blob Verif.Crypt

/-! ## export.go -/

/-- the entries in order (export.go:17-25) -/
def exportEntries (s : DB) : List Str := sortStr (s.snapshot.map Prod.fst)

/-- the columns (export.go:15-27) -/
def exportKeys (s : DB) : List Str := sortStr (dedup (s.snapshot.flatMap fun p => p.2.map Prod.fst))

/-- the records written (export.go:40-51); a missing key is an empty field -/
def exportRecords (s : DB) : List (List Str) :=
  exportKeys s :: (exportEntries s).map fun u => (exportKeys s).map (val ((s.snapshot.get? u).getD []))

/-- `export` (export.go:13-58): the contents of the file written, if it can be written. The snapshot is used as it is. -/
def export_ (format : Str) (canWrite : Bool) (s : DB) : Res AppErr Str :=
  if format ≠ b! "CSV" then .err .csv
  else if canWrite then .ok (Csv.write (exportRecords s)) else .err .external

/-! ## import.go -/

def lastpassHeader : Str := b! "url,username,password,extra,name,grouping,fav"

/-- `strings.ReplaceAll(s, " ", "_")` -/
def underscores (s : Str) : Str := s.map fun b => if b = 32 then 95 else b

/-- the labels of an imported record (import.go:95-103) -/
def importLabels (toLower : Str → Str) (grouping fav : Str) : List Str :=
  (if grouping = [] then [] else [toLower grouping]) ++ (if fav = b! "1" then [b! "lpfav"] else [])

/-- `u.store.DB.Set` unless the value is empty -/
def setSome (s : DB) (t : Int) (uuid key value : Str) : DB := if value = [] then s else s.setKey t uuid key value

/-- one record (import.go:58-106). The loop over names is the one of `NewSync`. A record with fewer than seven fields crashes
(there are never more, see `lastpassHeader`). `toLower` is `strings.ToLower`. -/
def importRecord (toLower : Str → Str) (ord : Order) (d : Draw) (s : DB) : List Str → DB × Res AppErr Unit
  | [url, user, pass, extra, nm, grouping, fav] =>
    match newSyncLoop ord d.now d.uuid (s.log.length + 2) s (underscores (toLower nm)) with
    | none => (s, .panic)
    | some (s, .panic) => (s, .panic)
    | some (s, .err e) => (s, .err (.blob e))
    | some (s, .ok uuid) =>
      let s := setSome s (d.now 4) uuid keyUser user
      let s := setSome s (d.now 5) uuid keyPass pass
      let s := setSome s (d.now 6) uuid keyURL url
      let s := setSome s (d.now 7) uuid keyNotes extra
      let ls := importLabels toLower grouping fav
      (if ls = [] then s else s.setKey (d.now 8) uuid keyLabels (join comma ls), .ok ())
  | _ => (s, .panic)

/-- the records one after the other, with what each draws -/
def importRecords (toLower : Str → Str) (ord : Order) : (Nat → Draw) → DB → List (List Str) → DB × Res AppErr Unit
  | _, s, [] => (s, .ok ())
  | ds, s, r :: rest =>
    match importRecord toLower ord (ds 0) s r with
    | (s, .ok ()) => importRecords toLower ord (fun i => ds (i + 1)) s rest
    | x => x

/-- the header check (import.go:51-55); it is made on the first record, which is then imported like the others -/
def headerOk : List (List Str) → Bool
  | [] => true
  | r :: _ => join comma r = lastpassHeader

/-- the loop (import.go:43-107): the records before the first unreadable one are imported -/
def importCsv (toLower : Str → Str) (ord : Order) (ds : Nat → Draw) (s : DB) (out : Str) : DB × Res AppErr Unit :=
  let (rs, eof) := Csv.read out
  if headerOk rs then
    match importRecords toLower ord ds s rs with
    | (s, .ok ()) => (s, if eof then .ok () else .err .csv)
    | x => x
  else (s, .err .csv)

/-- `importLastpass` (import.go:14-113): `out` is what `lpass` printed, `none` = it failed -/
def importLastpass (toLower : Str → Str) (ord : Order) (ds : Nat → Draw) (created : Bool) (out : Option Str) (u : Session)
    (inp : Input) : Session × Res AppErr Unit :=
  let go : Session × Res AppErr Unit :=
    match out with
    | none => (u, .err .external)
    | some out =>
      match importCsv toLower ord ds u.store out with
      | (s, r) => ({ u with store := s }, r)
  if created then go
  else
    match prompt inp with
    | (none, _) => (u, .err .aborted)
    | (some line, _) => if line = b! "y" ∨ line = b! "Y" then go else (u, .ok ())

end Verif.App
