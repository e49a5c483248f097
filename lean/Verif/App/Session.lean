import Verif.App.Merging
import Verif.Crypt.Model
import Verif.Go.Hex
/-!
# Model of the session: `uicontext.go`, and loading and saving in `main.go`

The JSON text of a store is a parameter here (`Codec`); `Verif.Json` models it and shows which stores survive it.
The salts and ivs the code draws at random are arguments.
-/
namespace Verif.App
open Verif Verif.Txlogs Verif.Blob Verif.Crypt

/-- Writing and reading a store: `json.Marshal` in `Save` (txlogs.go:79), `New` (txlogs.go:54-61; `ok none` = a nil store)
and `NewLog` (txlogs.go:64-71). -/
structure Codec where
  marshal : DB → Str
  load : Str → Res Unit (Option DB)
  loadLog : Str → Res Unit (List Tx)

/-- the errors of this layer -/
inductive AppErr where
  | blob (e : BErr)
  | crypt (e : CErr)
  | tx (e : TxErr)
  | json
  | aborted                -- a prompt failed
  | notUsername            -- uicontext.go:58
  | badSalt | badIV | badMKey  -- uicontext.go:70, 74, 78
  | noUser                 -- uicontext.go:65
  | emptyPassword          -- main.go:165
  | noMatch                -- main.go:174
  | poisoned               -- os.Exit(1) in sync.go:150
  | csv                    -- an error of the csv reader or an unknown format (import.go:48, 53, export.go:31)
  | external               -- another program or the file system failed (import.go:38, export.go:36, main.go:272)
  | genPassword            -- an error of `genPassword` other than impossibility (commands.go:237)
  deriving Repr, DecidableEq

/-- `uiContext` (uicontext.go:13-37), without the terminal and the file names. -/
structure Session where
  creds : Creds := {}
  store : DB := {}
  readOnly : Bool := false
  startTx : Nat := 0
  deriving Repr, DecidableEq

/-- the loop of `makeParams` (uicontext.go:54-93) -/
def paramLoop (P : Prims) (c : Creds) : List (Str × Str) → DB → Params → DB × Res AppErr Params
  | [], s, p => (s, .ok p)
  | (uuid, nm) :: rest, s, p =>
    let user := splitUsername nm
    if user = [] then (s, .err .notUsername)
    else
      match mustFind s uuid with
      | (s, .panic) => (s, .panic)
      | (s, .err _) => (s, .err .noUser)
      | (s, .ok blob) =>
        match hexDecode (val blob keySalt) with
        | none => (s, .err .badSalt)
        | some salt =>
          match hexDecode (val blob keyIV) with
          | none => (s, .err .badIV)
          | some iv =>
            match hexDecode (val blob keyMKey) with
            | none => (s, .err .badMKey)
            | some mkey =>
              paramLoop P c rest s { p with
                user := if c.user = user then p.nUsers else p.user
                keys := p.keys ++ [if c.user = user then c.key else []]
                users := p.users ++ [P.sha256 user]
                salts := p.salts ++ [salt]
                ivs := p.ivs ++ [iv]
                mkeys := p.mkeys ++ [mkey]
                nUsers := p.nUsers + 1 }

/-- an empty slice as nil -/
def orNil (s : Str) : Option Str := if s = [] then none else some s

/-- `makeParams` (uicontext.go:39-99); `index` of the code always equals `p.NUsers`. -/
def makeParams (P : Prims) (ord : Order) (ord' : Results → Results) (c : Creds) (s : DB) : DB × Res AppErr Params :=
  if c.master = [] then (s, .ok { keys := [c.key], salts := [c.salt] })
  else
    match users ord s with
    | (s, .panic) => (s, .panic)
    | (s, .err _) => (s, .panic)
    | (s, .ok us) =>
      match paramLoop P c (ord' us) s {} with
      | (s, .ok p) => (s, .ok { p with ivm := orNil c.ivm, master := orNil c.master })
      | r => r

/-- Save, make parameters, encrypt (main.go:257-270, sync.go:154-165): the store afterwards and the file contents. -/
def sealFile (P : Prims) (C : Codec) (ord : Order) (ord' : Results → Results) (iv : Str) (c : Creds) (s : DB) :
    DB × Res AppErr Str :=
  match s.save with
  | .error e => (s, .err (.tx e))
  | .ok _ =>
    match makeParams P ord ord' c s with
    | (s', .panic) => (s', .panic)
    | (s', .err e) => (s', .err e)
    | (s', .ok p) =>
      match encrypt P 1 p iv (C.marshal s) with
      | .panic => (s', .panic)
      | .err e => (s', .err (.crypt e))
      | .ok f => (s', .ok f)

/-- `saveBlob` (main.go:252-273): `ok none` = nothing is written, `ok (some f)` = the file is replaced by `f`. How the file is
written is the subject of `Verif.App.File`. -/
def saveBlob (P : Prims) (C : Codec) (ord : Order) (ord' : Results → Results) (iv : Str) (u : Session) :
    Res AppErr (Option Str) :=
  if u.readOnly then .ok none
  else
    match (sealFile P C ord ord' iv u.creds u.store).2 with
    | .ok f => .ok (some f)
    | .err e => .err e
    | .panic => .panic

/-- the log up to the first operation later than `t` (main.go:235-240) -/
def cutLog (t : Int) : List Tx → List Tx
  | [] => []
  | tx :: rest => if tx.time > t then [] else tx :: cutLog t rest

/-- `params.Keys[params.User]` -/
def userSlot (l : List Str) (i : Int) : Option Str := if i < 0 then none else l[i.toNat]?

/-- the end of `loadBlob` (main.go:229-249) -/
def openStore (history : Option Int) (c : Creds) : Option DB → Res AppErr Session
  | none => .ok { creds := c, store := {}, readOnly := history.isSome, startTx := 0 }
  | some s =>
    match history with
    | none => .ok { creds := c, store := s, readOnly := false, startTx := s.log.length }
    | some t =>
      match ({ s.resetSnapshot with log := cutLog t s.log } : DB).updateSnapshot with
      | (_, some e) => .err (.tx e)
      | (s, none) => .ok { creds := c, store := s, readOnly := true, startTx := s.log.length }

/-- `loadBlob` for a file that exists (main.go:186-249) -/
def openFile (P : Prims) (C : Codec) (history : Option Int) (f : Str) (inp : Input) : Res AppErr Session × Input :=
  match isMultiUser f with
  | .panic => (.panic, inp)
  | .err e => (.err (.crypt e), inp)
  | .ok multi =>
    let (user, inp) := if multi then prompt inp else (some [], inp)
    match user with
    | none => (.err .aborted, inp)
    | some user =>
      match prompt inp with
      | (none, inp) => (.err .aborted, inp)
      | (some pwd, inp) =>
        match decrypt P user pwd none [] f with
        | .panic => (.panic, inp)
        | .err e => (.err (.crypt e), inp)
        | .ok (_, p, pt) =>
          match userSlot p.keys p.user, userSlot p.salts p.user with
          | some key, some salt =>
            let c : Creds := { user := user, pass := pwd, key := key, salt := salt
                               master := p.master.getD [], ivm := p.ivm.getD [] }
            match C.load pt with
            | .panic => (.panic, inp)
            | .err _ => (.err .json, inp)
            | .ok s => (openStore history c s, inp)
          | _, _ => (.panic, inp)

/-- `loadBlob` for a new file (main.go:158-184, 229-249). `u.pass` is not set. -/
def createFile (P : Prims) (history : Option Int) (salt : Str) (inp : Input) : Res AppErr Session × Input :=
  match prompt inp with
  | (none, inp) => (.err .aborted, inp)
  | (some pwd, inp) =>
    if pwd = [] then (.err .emptyPassword, inp)
    else
      match prompt inp with
      | (none, inp) => (.err .aborted, inp)
      | (some verify, inp) =>
        if pwd ≠ verify then (.err .noMatch, inp)
        else
          match deriveKey P 1 pwd salt with
          | .ok (key, salt) =>
            (.ok { creds := { key := key, salt := salt }, store := {}, readOnly := history.isSome, startTx := 0 }, inp)
          | .err e => (.err (.crypt e), inp)
          | .panic => (.panic, inp)

end Verif.App
