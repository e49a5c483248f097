import Verif.Txlogs.Model
/-!
# Model of `Merge` (txlogs/txlogs.go:312-487) and `Conflict` (txlogs/tx.go:32-76)
-/
namespace Verif.Txlogs
open Verif

/-- conflict kinds (txlogs/tx.go:33-40) -/
inductive ConflictKind where
  | deleteSet | root
  deriving Repr, DecidableEq

/-- conflict resolutions (txlogs/tx.go:43-48) -/
inductive Resolution where
  | none | discardInitial | discardConflict | force
  deriving Repr, DecidableEq

/-- `Conflict` (txlogs/tx.go:52-59) -/
structure Conflict where
  kind : ConflictKind
  initial : Tx
  conflict : Tx
  resolution : Resolution := .none
  deriving Repr, DecidableEq

namespace Conflict
/-- txlogs/tx.go:62-64 -/
def discardConflict (c : Conflict) : Conflict := { c with resolution := .discardConflict }
/-- txlogs/tx.go:68-70 -/
def discardInitial (c : Conflict) : Conflict := { c with resolution := .discardInitial }
/-- txlogs/tx.go:74-76 -/
def force (c : Conflict) : Conflict := { c with resolution := .force }
end Conflict

/-- What a call of `Merge` ends in: `return c, nil`, `return nil, conflicts`, or a run-time panic. -/
inductive MergeRes where
  | log (c : List Tx)
  | conflicts (cs : List Conflict)
  | panic
  deriving Repr, DecidableEq

/-- The local variables of `Merge` (txlogs.go:354-355 and the named result `conflicts`). -/
structure MState where
  c : List Tx := []
  deleted : GoMap Str Nat := []
  conflicts : List Conflict := []
  deriving Repr, DecidableEq

/-- `c = append(c, x)` -/
def MState.push (st : MState) (x : Tx) : MState := { st with c := st.c ++ [x] }

/-- `checkConflict` (txlogs.go:364-424); `none` = panic.
The loop 377-388 looks for any resolution of this delete that is "discard initial"; the loop 398-409 acts on
the first resolution with the time of the earlier delete. -/
def checkConflict (resolved : List Conflict) (st : MState) : Option MState :=
  match st.c.getLast? with
  | none => none
  | some x =>
    match st.deleted.get? x.uuid with
    | none =>
      if x.kind ≠ .del then some st
      else if resolved.any (fun r => decide (r.initial.time = x.time) &&
          decide (r.resolution = .discardInitial)) then
        some { st with c := st.c.dropLast }
      else some { st with deleted := st.deleted.set x.uuid (st.c.length - 1) }
    | some ind =>
      match st.c[ind]? with
      | none => none
      | some deleteTx =>
        match resolved.find? (fun r => r.initial.time = deleteTx.time) with
        | some r =>
          if r.resolution ≠ .discardConflict then none
          else some { st with c := st.c.dropLast }
        | none =>
          if st.conflicts.any (fun con => con.initial.time = deleteTx.time) then some st
          else some { st with conflicts := st.conflicts ++
            [{ kind := .deleteSet, initial := deleteTx, conflict := x }] }

/-- "Append the rest of the events" (txlogs.go:473-480); when the main loop ends one of the two is empty. -/
def appendRest (resolved : List Conflict) : List Tx → MState → Option MState
  | [], st => some st
  | x :: rest, st =>
    match checkConflict resolved (st.push x) with
    | none => none
    | some st' => appendRest resolved rest st'

/-- `len(resolved) == 0 || resolved[0].resolution != resolveForce` negated (txlogs.go:451). -/
def rootForced (resolved : List Conflict) : Bool :=
  match resolved with
  | [] => false
  | r :: _ => decide (r.resolution = .force)

/-- The main loop (txlogs.go:426-480): `i`, `j` are the positions, `a`, `b` the remaining inputs. -/
def mergeLoop (resolved : List Conflict) (i j : Nat) (a b : List Tx) (st : MState) :
    Option MState :=
  match a, b with
  | [], b => appendRest resolved b st
  | x :: a, [] => appendRest resolved (x :: a) st
  | x :: a, y :: b =>
    if x.time = y.time then
      let deleted := if x.kind = .del then st.deleted.set x.uuid i else st.deleted
      mergeLoop resolved (i + 1) (j + 1) a b { st with deleted := deleted, c := st.c ++ [x] }
    else
      let conflicts :=
        if i = 0 ∧ j = 0 ∧ rootForced resolved = false then
          st.conflicts ++ [{ kind := .root, initial := x, conflict := y }]
        else st.conflicts
      let st := { st with conflicts := conflicts }
      if x.time < y.time then
        match checkConflict resolved (st.push x) with
        | none => none
        | some st' => mergeLoop resolved (i + 1) j a (y :: b) st'
      else
        match checkConflict resolved (st.push y) with
        | none => none
        | some st' => mergeLoop resolved i (j + 1) (x :: a) b st'
termination_by a.length + b.length

/-- The fast path test (txlogs.go:339-340) for logs of equal length: same first and same last time. For two
empty logs `a[0]` panics (`none`). -/
def fastPath (a b : List Tx) : Option Bool :=
  if a.length = b.length then
    match a.head?, b.head?, a.getLast?, b.getLast? with
    | some x, some y, some x', some y' => some (decide (x.time = y.time) && decide (x'.time = y'.time))
    | _, _, _, _ => none
  else some false

/-- `Merge` (txlogs.go:329-487). -/
def merge (a b : List Tx) (resolved : List Conflict) : MergeRes :=
  if resolved.any (fun r => r.resolution = .none) then .conflicts resolved
  else
    match fastPath a b with
    | none => .panic
    | some true => .log a
    | some false =>
      match mergeLoop resolved 0 0 a b {} with
      | none => .panic
      | some st => if st.conflicts = [] then .log st.c else .conflicts st.conflicts

end Verif.Txlogs
