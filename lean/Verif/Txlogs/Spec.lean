import Verif.Txlogs.Model
/-!
# Specification of the store, independent of the code

A store state is a partial function from uuids to partial functions from keys to values.
-/
namespace Verif.Txlogs.Spec
open Verif Verif.Txlogs

/-- What a user sees: for each uuid nothing, or a partial map from keys to values. -/
abbrev State := Str → Option (Str → Option Str)

/-- The empty store. -/
def empty : State := fun _ => none

/-- Functional update. -/
def upd {α β : Type} [DecidableEq α] (f : α → β) (a : α) (b : β) : α → β :=
  fun x => if x = a then b else f x

/-- Meaning of one logged operation; `none` = the operation is illegal in this state. -/
def apply (st : State) (tx : Tx) : Option State :=
  match tx.kind, st tx.uuid with
  | .add, none => some (upd st tx.uuid (some (fun _ => none)))
  | .add, some _ => none
  | .del, some _ => some (upd st tx.uuid none)
  | .del, none => none
  | .setk, some e => some (upd st tx.uuid (some (upd e tx.key (some tx.value))))
  | .setk, none => none
  | .delk, some e => some (upd st tx.uuid (some (upd e tx.key none)))
  | .delk, none => none
  | .other _, _ => some st

/-- Meaning of a log, oldest operation first; `none` = some operation is illegal. -/
def meaning : State → List Tx → Option State
  | st, [] => some st
  | st, tx :: log =>
    match apply st tx with
    | none => none
    | some st' => meaning st' log

/-- What is visible in a snapshot. -/
def view (snap : Snapshot) : State := fun u => (snap.get? u).map (fun e k => e.get? k)

/-- The log, newest operation first, decides whether entry `u` exists. -/
def visibleRev (u : Str) : List Tx → Bool
  | [] => false
  | tx :: older =>
    if tx.uuid = u then
      match tx.kind with
      | .add => true
      | .del => false
      | _ => visibleRev u older
    else visibleRev u older

/-- The log, newest operation first, decides the value of key `k` of entry `u`. -/
def valueRev (u k : Str) : List Tx → Option Str
  | [] => none
  | tx :: older =>
    if tx.uuid = u then
      match tx.kind with
      | .add => none
      | .del => none
      | .setk => if tx.key = k then some tx.value else valueRev u k older
      | .delk => if tx.key = k then none else valueRev u k older
      | .other _ => valueRev u k older
    else valueRev u k older

end Verif.Txlogs.Spec
