import Verif.Go.Basic
/-!
# Model of `txlogs/txlogs.go` and `txlogs/tx.go`: the transactional log store
-/
namespace Verif.Txlogs
open Verif

/-- `TxKind` (txlogs/tx.go:4-15). The Go type is a string; `other` stands for any string that is none of
the four constants (possible only in a file not written by bpass). -/
inductive TxKind where
  | add | del | setk | delk | other (s : Str)
  deriving Repr, DecidableEq

/-- `Tx` (txlogs/tx.go:18-30). `Time` is an `int64` that the code only compares: `Int`. -/
structure Tx where
  time : Int
  kind : TxKind
  uuid : Str
  key : Str := []
  value : Str := []
  deriving Repr, DecidableEq

/-- `Entry` (txlogs/txlogs.go:47). -/
abbrev Entry := GoMap Str Str

/-- `map[string]Entry` (txlogs/txlogs.go:38). A nil map and an empty map are not distinguished: the code
allocates before writing (txlogs.go:218-220) and otherwise only reads. -/
abbrev Snapshot := GoMap Str Entry

/-- `DB` (txlogs/txlogs.go:34-43). -/
structure DB where
  version : Nat := 0
  snapshot : Snapshot := []
  log : List Tx := []
  txPoint : Nat := 0
  deriving Repr, DecidableEq

/-- The errors the store functions return. -/
inductive TxErr where
  | alreadyExists (uuid : Str)      -- txlogs.go:494
  | notInSnapshot (uuid : Str)      -- txlogs.go:500, 526
  | rollbackPastBeginning           -- txlogs.go:193
  | notThatManyVersions             -- txlogs.go:235, 254
  | notThatManyVersionsEntry        -- txlogs.go:267
  | keyNotFound (uuid : Str)        -- txlogs.go:283
  | saveInTransaction               -- txlogs.go:76
  deriving Repr, DecidableEq

/-- `getEntry` (txlogs/txlogs.go:523-530). -/
def getEntry (obj : Snapshot) (uuid : Str) : Except TxErr Entry :=
  match obj.get? uuid with
  | none => .error (.notInSnapshot uuid)
  | some e => .ok e

/-- `applyTx` (txlogs/txlogs.go:490-521). Mutating the map becomes returning the new one; every error is
returned before anything is mutated. An unknown kind falls through the switch and does nothing. -/
def applyTx (dst : Snapshot) (tx : Tx) : Except TxErr Snapshot :=
  match tx.kind with
  | .add =>
    match dst.get? tx.uuid with
    | some _ => .error (.alreadyExists tx.uuid)
    | none => .ok (dst.set tx.uuid [])
  | .del =>
    match dst.get? tx.uuid with
    | none => .error (.notInSnapshot tx.uuid)
    | some _ => .ok (dst.del tx.uuid)
  | .setk =>
    match getEntry dst tx.uuid with
    | .error e => .error e
    | .ok entry => .ok (dst.set tx.uuid (entry.set tx.key tx.value))
  | .delk =>
    match getEntry dst tx.uuid with
    | .error e => .error e
    | .ok entry => .ok (dst.set tx.uuid (entry.del tx.key))
  | .other _ => .ok dst

namespace DB

/-- `new(DB)`: the zero value. -/
def new : DB := {}

/-- `appendLog` (txlogs.go:135-138); `now` is the clock reading. -/
def appendLog (s : DB) (now : Int) (tx : Tx) : DB :=
  { s with log := s.log ++ [{ tx with time := now }] }

/-- `Add` (txlogs.go:83-99); `uuid` is the fresh v4 uuid. The error of the uuid generator is not modelled
(it returns before the log is touched). -/
def add (s : DB) (now : Int) (uuid : Str) : DB :=
  { s with log := s.log ++ [{ time := now, kind := .add, uuid := uuid }] }

/-- `Set` (txlogs.go:102-111). -/
def setKey (s : DB) (now : Int) (uuid key value : Str) : DB :=
  s.appendLog now { time := 0, kind := .setk, uuid := uuid, key := key, value := value }

/-- `Delete` (txlogs.go:114-121). -/
def delete (s : DB) (now : Int) (uuid : Str) : DB :=
  s.appendLog now { time := 0, kind := .del, uuid := uuid }

/-- `DeleteKey` (txlogs.go:124-132). -/
def deleteKey (s : DB) (now : Int) (uuid key : Str) : DB :=
  s.appendLog now { time := 0, kind := .delk, uuid := uuid, key := key }

/-- `Begin` (txlogs.go:145-147). Despite its comment it never panics: a second Begin moves the point. -/
def begin (s : DB) : DB := { s with txPoint := s.log.length + 1 }

/-- `Commit` (txlogs.go:150-155); `none` = panic. -/
def commit (s : DB) : Option DB :=
  if s.txPoint = 0 then none else some { s with txPoint := 0 }

/-- `ResetSnapshot` (txlogs.go:206-209). -/
def resetSnapshot (s : DB) : DB := { s with version := 0, snapshot := [] }

/-- `Rollback` (txlogs.go:158-169); `none` = panic. `s.Log[:s.txPoint-1]` beyond the length of the log (only
possible after a `RollbackN` inside the transaction) panics in the model; in Go it panics or, if the
backing array is large enough, re-exposes removed operations. -/
def rollback (s : DB) : Option DB :=
  if s.txPoint = 0 then none
  else
    let s' := if s.version > s.txPoint then s.resetSnapshot else s
    if s.txPoint - 1 > s.log.length then none
    else some { s' with log := s.log.take (s.txPoint - 1), txPoint := 0 }

/-- `RollbackN` (txlogs.go:186-203): new state and error. -/
def rollbackN (s : DB) (n : Nat) : DB × Option TxErr :=
  if n = 0 then (s, none)
  else if n > s.log.length then (s, some .rollbackPastBeginning)
  else
    let s' := if s.version > s.log.length - n then s.resetSnapshot else s
    ({ s' with log := s.log.take (s.log.length - n) }, none)

/-- the loop of `UpdateSnapshot` (txlogs.go:222-226): `pending` is `s.Log[s.Version:]`. -/
def updateLoop : List Tx → Nat → Snapshot → Nat × Snapshot × Option TxErr
  | [], v, snap => (v, snap, none)
  | tx :: pending, v, snap =>
    match applyTx snap tx with
    | .error e => (v, snap, some e)
    | .ok snap' => updateLoop pending (v + 1) snap'

/-- `UpdateSnapshot` (txlogs.go:213-229): new state and error. -/
def updateSnapshot (s : DB) : DB × Option TxErr :=
  if s.version ≥ s.log.length then (s, none)
  else
    let r := updateLoop (s.log.drop s.version) s.version s.snapshot
    ({ s with version := r.1, snapshot := r.2.1 }, r.2.2)

/-- the loop shared by `SnapshotAt` (txlogs.go:240-244) and `EntrySnapshotAt` (272-277): apply the
operations at the given indexes in order; an index out of range panics. -/
def applyIdx (log : List Tx) : List Nat → Snapshot → Res TxErr Snapshot
  | [], snap => .ok snap
  | i :: is, snap =>
    match log[i]? with
    | none => .panic
    | some tx =>
      match applyTx snap tx with
      | .error e => .err e
      | .ok snap' => applyIdx log is snap'

/-- `SnapshotAt` (txlogs.go:233-247). `versionsAgo` is a Go `int`. The loop runs `i = 0 … stopVersion`. -/
def snapshotAt (s : DB) (versionsAgo : Int) : Res TxErr Snapshot :=
  if versionsAgo > s.log.length then .err .notThatManyVersions
  else
    let stopVersion : Int := s.log.length - 1 - versionsAgo
    applyIdx s.log (List.range (stopVersion + 1).toNat) []

/-- the index collection loop of `EntrySnapshotAt` (txlogs.go:257-264), starting at position `i`. -/
def entryTxIndices (uuid : Str) : List Tx → Nat → List Nat
  | [], _ => []
  | tx :: log, i =>
    if tx.uuid ≠ uuid then entryTxIndices uuid log (i + 1)
    else i :: entryTxIndices uuid log (i + 1)

/-- `EntrySnapshotAt` (txlogs.go:252-284). For a negative `versionsAgo` the loop indexes past the end of
`entryTxIndicies` and panics (after applying all of them without error). -/
def entrySnapshotAt (s : DB) (uuid : Str) (versionsAgo : Int) : Res TxErr Entry :=
  if versionsAgo ≥ s.log.length then .err .notThatManyVersions
  else
    let idx := entryTxIndices uuid s.log 0
    if versionsAgo > idx.length then .err .notThatManyVersionsEntry
    else
      let stopVersion : Int := idx.length - 1 - versionsAgo
      match applyIdx s.log (idx.take (stopVersion + 1).toNat) [] with
      | .err e => .err e
      | .panic => .panic
      | .ok snap =>
        if versionsAgo < 0 then .panic
        else
          match snap.get? uuid with
          | some entry => .ok entry
          | none => .err (.keyNotFound uuid)

/-- `NVersions` (txlogs.go:287-295): the counting loop. -/
def nVersions (s : DB) (uuid : Str) : Nat :=
  s.log.foldl (fun versions l => if l.uuid = uuid then versions + 1 else versions) 0

/-- `LastUpdated` (txlogs.go:299-310): scan from the end. -/
def lastUpdated (s : DB) (uuid : Str) : Int :=
  match s.log.reverse.find? (fun l => l.uuid = uuid) with
  | some l => l.time
  | none => -1

/-- the guard of `Save` (txlogs.go:74-80); the marshalled value is the store itself (the JSON text is
modelled in `Verif.Json`). -/
def save (s : DB) : Except TxErr DB :=
  if s.txPoint ≠ 0 then .error .saveInTransaction else .ok s

end DB

/-- One call of the store API, with the clock reading / fresh uuid it consumes. -/
inductive Op where
  | add (now : Int) (uuid : Str)
  | set (now : Int) (uuid key value : Str)
  | delete (now : Int) (uuid : Str)
  | deleteKey (now : Int) (uuid key : Str)
  | begin
  | commit
  | rollback
  | rollbackN (n : Nat)
  | resetSnapshot
  | updateSnapshot
  deriving Repr, DecidableEq

/-- Effect of one call: `none` = the call panicked, otherwise new state and returned error. -/
def step (s : DB) : Op → Option (DB × Option TxErr)
  | .add now uuid => some (s.add now uuid, none)
  | .set now u k v => some (s.setKey now u k v, none)
  | .delete now u => some (s.delete now u, none)
  | .deleteKey now u k => some (s.deleteKey now u k, none)
  | .begin => some (s.begin, none)
  | .commit => s.commit.map (·, none)
  | .rollback => s.rollback.map (·, none)
  | .rollbackN n => some (s.rollbackN n)
  | .resetSnapshot => some (s.resetSnapshot, none)
  | .updateSnapshot => some s.updateSnapshot

/-- A sequence of calls; errors are returned to the caller and do not stop the sequence, a panic does. -/
def run (s : DB) : List Op → Option DB
  | [] => some s
  | op :: ops =>
    match step s op with
    | none => none
    | some (s', _) => run s' ops

/-- `Do` (txlogs.go:173-182) where the lambda performs `ops` and returns an error iff `fails`.
`none` = panic. -/
def doTx (s : DB) (ops : List Op) (fails : Bool) : Option DB :=
  match run s.begin ops with
  | none => none
  | some s' => if fails then s'.rollback else s'.commit

end Verif.Txlogs
