import Verif.App.Transfer
import Verif.Blob.Spec
/-!
# What the properties of export and import talk about
-/
namespace Verif.App.Spec
open Verif Verif.Txlogs Verif.Blob Verif.App

/-- The records are a table of the entries `st`: first the keys in use, then one record for each entry with the value of each
key, empty where the entry does not have the key. -/
def Table (st : Txlogs.Spec.State) (rs : List (List Str)) : Prop :=
  ∃ keys uuids : List Str, keys.Nodup ∧ uuids.Nodup ∧
    (∀ k, k ∈ keys ↔ ∃ u e, st u = some e ∧ (e k).isSome) ∧
    (∀ u, u ∈ uuids ↔ (st u).isSome) ∧
    rs = keys :: uuids.map fun u => keys.map fun k => ((st u).bind (· k)).getD []

/-- an absent value for an empty one -/
def filled (v : Str) : Option Str := if v = [] then none else some v

/-- The entry a record of a LastPass file stands for, under the name `nm`. -/
def imported (toLower : Str → Str) (t : Int) (nm : Str) : List Str → Str → Option Str
  | [url, user, pass, extra, _, grouping, fav] => fun k =>
    if k = keyName then some nm
    else if k = keyUpdated then some (fmtInt t)
    else if k = keyUser then filled user
    else if k = keyPass then filled pass
    else if k = keyURL then filled url
    else if k = keyNotes then filled extra
    else if k = keyLabels then
      (if grouping = [] then (if fav = b! "1" then some (b! "lpfav") else none)
       else some (toLower grouping ++ if fav = b! "1" then b! ",lpfav" else []))
    else none
  | _ => fun _ => none

/-- the name in a record -/
def recordName (toLower : Str → Str) (r : List Str) : Str := underscores (toLower (r.getD 4 []))

end Verif.App.Spec
