import Verif.App.Input
import Verif.Blob.Model
import Verif.Txlogs.Merge
/-!
# Model of `merging.go`
-/
namespace Verif.App
open Verif Verif.Txlogs Verif.Blob

/-- The credentials kept in `uiContext` (uicontext.go:30-36) and in `mergeResult` (merging.go:13-15). nil and empty slices
are not distinguished: the code only asks for their length or compares them. -/
structure Creds where
  user : Str := []
  pass : Str := []
  key : Str := []
  salt : Str := []
  master : Str := []
  ivm : Str := []
  deriving Repr, DecidableEq

/-- `blobParts` (sync.go:29-34). `creds` holds `Creds.User`, `Creds.Pass`, `Params.Keys[Params.User]`,
`Params.Salts[Params.User]`, `Params.Master` and `Params.IVM`, the only parts that are used. -/
structure Remote where
  name : Str := []
  creds : Creds := {}
  log : List Tx := []
  deriving Repr, DecidableEq

/-- errors of merging -/
inductive SyncErr where
  | aborted                -- a prompt failed
  | totalFork              -- merging.go:237
  | blob (e : BErr)
  | noLocalUser            -- merging.go:139
  | noMergedUser           -- merging.go:141
  deriving Repr, DecidableEq

/-- the R/D prompt (merging.go:259-273). After an answer the `switch` ends and the `for` starts over: the only way out is
the error of a failed prompt. -/
def askRestore (c : Conflict) : Input → Option Conflict × Input
  | [] => (none, [])
  | none :: rest => (none, rest)
  | some line :: rest =>
    if line = b! "R" ∨ line = b! "r" then askRestore c.discardInitial rest
    else if line = b! "D" ∨ line = b! "d" then askRestore c.discardConflict rest
    else askRestore c rest

/-- the loop over the conflicts (merging.go:226-275) -/
def resolveAll : List Conflict → Input → Res SyncErr (List Conflict) × Input
  | [], inp => (.ok [], inp)
  | c :: cs, inp =>
    let one : Res SyncErr Conflict × Input :=
      match c.kind with
      | .root =>
        match getYesNo inp with
        | (none, rest) => (.err .aborted, rest)
        | (some false, rest) => (.err .totalFork, rest)
        | (some true, rest) => (.ok c.force, rest)
      | .deleteSet =>
        match askRestore c inp with
        | (none, rest) => (.err .aborted, rest)
        | (some c, rest) => (.ok c, rest)
    match one with
    | (.err e, rest) => (.err e, rest)
    | (.panic, rest) => (.panic, rest)
    | (.ok c, rest) =>
      match resolveAll cs rest with
      | (.ok cs, rest) => (.ok (c :: cs), rest)
      | r => r

theorem getYesNo_lt {inp rest : Input} {b : Bool} (h : getYesNo inp = (some b, rest)) : rest.length < inp.length := by
  induction inp with
  | nil => simp [getYesNo] at h
  | cons a inp ih =>
    cases a with
    | none => simp [getYesNo] at h
    | some s =>
      simp only [getYesNo] at h
      split at h
      · cases h; simp
      · split at h
        · cases h; simp
        · have := ih h; simp; omega

theorem askRestore_none (c : Conflict) (inp : Input) : (askRestore c inp).1 = none := by
  induction inp generalizing c with
  | nil => rfl
  | cons a inp ih =>
    cases a with
    | none => rfl
    | some s =>
      simp only [askRestore]
      split
      · exact ih _
      · split
        · exact ih _
        · exact ih _

/-- going through the conflicts uses up input -/
theorem resolveAll_lt {cs cs' : List Conflict} {inp rest : Input} (h : resolveAll cs inp = (.ok cs', rest)) :
    rest.length ≤ inp.length ∧ (cs ≠ [] → rest.length < inp.length) := by
  induction cs generalizing cs' inp rest with
  | nil => simp [resolveAll] at h; simp [h]
  | cons c cs ih =>
    simp only [resolveAll] at h
    cases hk : c.kind with
    | root =>
      rw [hk] at h
      cases hy : getYesNo inp with
      | mk y r =>
        rw [hy] at h
        cases y with
        | none => simp at h
        | some y =>
          cases y with
          | false => simp at h
          | true =>
            simp only at h
            have h1 := getYesNo_lt hy
            cases hr : resolveAll cs r with
            | mk x r' =>
              rw [hr] at h
              cases x with
              | ok x =>
                simp only [Prod.mk.injEq] at h
                have h2 := (ih hr).1
                rw [← h.2]
                omega
              | err => simp at h
              | panic => simp at h
    | deleteSet =>
      rw [hk] at h
      have := askRestore_none c inp
      cases hy : askRestore c inp with
      | mk y r =>
        rw [hy] at h this
        simp only at this
        subst this
        simp at h

/-- the outer loop (merging.go:217-276) -/
def mergeRounds (loc rem : List Tx) (conflicts : List Conflict) (inp : Input) : Res SyncErr (List Tx) × Input :=
  match merge loc rem conflicts with
  | .panic => (.panic, inp)
  | .log c => (.ok c, inp)
  | .conflicts [] => (.ok [], inp)  -- not possible: `Merge` reports conflicts only if there are some
  | .conflicts (c :: cs) =>
    match h : resolveAll (c :: cs) inp with
    | (.ok cs', rest) =>
      have : rest.length < inp.length := (resolveAll_lt h).2 (by simp)
      mergeRounds loc rem cs' rest
    | (.err e, rest) => (.err e, rest)
    | (.panic, rest) => (.panic, rest)
termination_by inp.length

/-- `mergeLogs` (merging.go:210-279) -/
def mergeLogs (loc rem : List Tx) (inp : Input) : Res SyncErr (List Tx) × Input :=
  if rem = [] then (.ok loc, inp) else mergeRounds loc rem [] inp

/-- `mergeResult` (merging.go:12-17) -/
structure Merged where
  creds : Creds
  log : List Tx
  deriving Repr, DecidableEq

/-- Which credentials to keep (merging.go:80-190): `ok true` = the remote's. `u` are the credentials of the session, `m` the
result so far. The warnings of lines 158-188 are output only; the user lists they need are computed for their errors. -/
def takeRemote (ord : Order) (u : Creds) (m : Merged) (r : Remote) (merged : List Tx) (inp : Input) :
    Res SyncErr Bool × Input :=
  if u.master = [] ∧ r.creds.master = [] then
    if u.key = r.creds.key then (.ok false, inp)
    else
      match m.log.getLast?, r.log.getLast? with
      | some l, some r' =>
        if l.time < r'.time then (.ok true, inp)
        else if l.time = r'.time then
          match getYesNo inp with
          | (none, rest) => (.err .aborted, rest)
          | (some b, rest) => (.ok b, rest)
        else (.ok false, inp)
      | _, _ => (.panic, inp)
  else if u.master.length ≠ r.creds.master.length then
    match (users ord { log := merged }).2 with
    | .panic => (.panic, inp)
    | .err e => (.err (.blob e), inp)
    | .ok us =>
      if us = [] ∧ u.master ≠ [] then (.ok true, inp)
      else if us ≠ [] ∧ u.master = [] then (.ok true, inp)
      else (.ok false, inp)
  else if u.master ≠ r.creds.master then
    match (findUser ord { log := m.log } m.creds.user).2 with
    | .panic => (.panic, inp)
    | .err e => (.err (.blob e), inp)
    | .ok localUser =>
      match (find { log := merged } ((localUser.map Prod.fst).getD [])).2 with
      | .panic => (.panic, inp)
      | .err e => (.err (.blob e), inp)
      | .ok mergedUser =>
        match localUser, mergedUser with
        | none, _ => (.err .noLocalUser, inp)
        | some _, none => (.err .noMergedUser, inp)
        | some (_, lu), some mu =>
          match (users ord { log := m.log }).2, (users ord { log := merged }).2 with
          | .ok _, .ok _ => (.ok (val lu keyMKey ≠ val mu keyMKey), inp)
          | .panic, _ => (.panic, inp)
          | .err e, _ => (.err (.blob e), inp)
          | .ok _, .panic => (.panic, inp)
          | .ok _, .err e => (.err (.blob e), inp)
  else (.ok false, inp)

/-- the loop of `mergeBlobs` (merging.go:73-200) -/
def mergeRemotes (ord : Order) (u : Creds) : List Remote → Merged → Input → Res SyncErr Merged × Input
  | [], m, inp => (.ok m, inp)
  | r :: rs, m, inp =>
    match mergeLogs m.log r.log inp with
    | (.panic, rest) => (.panic, rest)
    | (.err e, rest) => (.err e, rest)
    | (.ok merged, rest) =>
      match takeRemote ord u m r merged rest with
      | (.panic, rest) => (.panic, rest)
      | (.err e, rest) => (.err e, rest)
      | (.ok take, rest) =>
        mergeRemotes ord u rs { creds := if take then r.creds else m.creds, log := merged } rest

/-- `mergeBlobs` (merging.go:62-203) -/
def mergeBlobs (ord : Order) (u : Creds) (log : List Tx) (rs : List Remote) (inp : Input) :
    Res SyncErr Merged × Input :=
  mergeRemotes ord u rs { creds := u, log := log } inp

end Verif.App
