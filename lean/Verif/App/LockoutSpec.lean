import Verif.App.HistorySpec
import Verif.App.AccountsSpec
import Verif.App.SharedSpec
/-!
# What the properties about accounts on several machines talk about
-/
namespace Verif.App.Spec
open Verif Verif.Txlogs Verif.Txlogs.Spec Verif.Blob Verif.Crypt Verif.App

/-- One time a password was set for the user entry `uuid`: the password, the record that was written, and when its three parts
were written. -/
structure Rec where
  uuid : Str
  pass : Str
  salt : Str
  iv : Str
  mkey : Str
  t0 : Int
  t1 : Int
  t2 : Int

/-- The keys of a record. -/
def recordKeys : List Str := [keySalt, keyIV, keyMKey]

/-- The three operations that write a record. -/
def Rec.ops (r : Rec) : List Tx :=
  [⟨r.t0, .setk, r.uuid, keySalt, hexEncode r.salt⟩, ⟨r.t1, .setk, r.uuid, keyIV, hexEncode r.iv⟩,
    ⟨r.t2, .setk, r.uuid, keyMKey, hexEncode r.mkey⟩]

/-- The password of the record unlocks the master key. -/
structure Unlocks (P : Prims) (master : Str) (r : Rec) : Prop where
  pass_ne : r.pass ≠ []
  salt_length : r.salt.length = 32
  iv_length : r.iv.length = 40
  mkey_length : r.mkey.length = 80
  wraps : encryptMasterKey P 1 (P.kdf r.pass r.salt) master r.iv = .ok (r.mkey, r.iv)
  first : r.t0 < r.t1
  second : r.t1 < r.t2

/-- `uuid` was at some time the entry of a user. -/
def UserUuid (l : List Tx) (uuid : Str) : Prop :=
  ∃ t ∈ l, t.kind = .setk ∧ t.uuid = uuid ∧ t.key = keyName ∧ hasPrefix t.value userPrefix = true

/-- The passwords that were set in the history `l` of a file with the master key `master`: their records are in the log and
unlock it, nothing else writes such keys, no record is written while another one of the same user is, and every user has one. -/
structure Keyring (P : Prims) (master : Str) (l : List Tx) (rs : List Rec) : Prop where
  unlocks : ∀ r ∈ rs, Unlocks P master r
  written : ∀ r ∈ rs, ∀ t ∈ r.ops, t ∈ l
  only : ∀ t ∈ l, t.kind = .setk ∨ t.kind = .delk → t.key ∈ recordKeys → ∃ r ∈ rs, t ∈ r.ops
  apart : ∀ r ∈ rs, ∀ r' ∈ rs, r.uuid = r'.uuid → r = r' ∨ r.t2 < r'.t0 ∨ r'.t2 < r.t0
  each : ∀ uuid, UserUuid l uuid → ∃ r ∈ rs, r.uuid = uuid
  names : ∀ t ∈ l, t.kind = .setk → t.key = keyName → t.value ≠ userPrefix

/-- The password set last for the entry of `r`. -/
def Newest (rs : List Rec) (r : Rec) : Prop := r ∈ rs ∧ ∀ r' ∈ rs, r'.uuid = r.uuid → r' = r ∨ r'.t2 < r.t0

/-- Two lists of records that can be put together: records of the same user do not overlap. -/
def Apart (rs rs' : List Rec) : Prop :=
  ∀ r ∈ rs, ∀ r' ∈ rs', r.uuid = r'.uuid → r = r' ∨ r.t2 < r'.t0 ∨ r'.t2 < r.t0

/-- User names have different hashes, and there are not too many of them. -/
structure Roomy (P : Prims) (l : List Tx) : Prop where
  few : ∀ us : List Str, us.Nodup → (∀ uuid ∈ us, UserUuid l uuid) → us.length ≤ 9999
  hash : ∀ t ∈ l, ∀ t' ∈ l, ∀ n n', t.kind = .setk → t'.kind = .setk → t.key = keyName → t'.key = keyName →
    t.value = userPrefix ++ n → t'.value = userPrefix ++ n' → P.sha256 n = P.sha256 n' → n = n'

/-- The machines share one master key and do not set a password for the same user at the same time. -/
structure OneMaster (P : Prims) (u : Session) (rs0 : List Rec) (l : List Remote) (rsOf : Remote → List Rec) : Prop where
  mine : Keyring P u.creds.master u.store.log rs0
  theirs : ∀ q ∈ l, q.creds.master = u.creds.master ∧ MultiCreds q.creds ∧ Keyring P u.creds.master q.log (rsOf q)
  apart : ∀ q ∈ l, Apart rs0 (rsOf q)
  aparts : ∀ q ∈ l, ∀ q' ∈ l, Apart (rsOf q) (rsOf q')

/-- A session in a file with users whose history and records are in order. -/
structure Keyed (P : Prims) (u : Session) (rs : List Rec) : Prop where
  sound : Sound u.store
  creds : MultiCreds u.creds
  ring : Keyring P u.creds.master u.store.log rs

/-- A line that leaves the user records to `passwd`, `rekey` and `adduser`: nothing else is named "user/...", no part of a record
is removed, `rekeyall` is not used (`C52_false`), nobody deletes the own account, and a new user has a name and a password that are not empty. -/
structure KeyLine (v : Env) (r : Repl) (cmd : Str) (args : List Str) : Prop where
  add : cmd = b! "add" → ∀ nm l, args = nm :: l → hasPrefix nm userPrefix = false
  mv : cmd = b! "mv" → ∀ src dst l, args = src :: dst :: l → hasPrefix dst userPrefix = false
  cut : cmd = b! "rmk" ∨ cmd = b! "edit" → ∀ q k l, queryArgs r.ctx args = some (q, k, l) → k ∉ recordKeys
  noRekeyAll : cmd ≠ b! "rekeyall"
  rm : cmd = b! "rm" → ∀ nm l, args = nm :: l → splitUsername nm = [] ∨ splitUsername nm ≠ r.u.creds.user
  adduser : cmd = b! "adduser" → ∀ nm l, args = nm :: l → nm ≠ [] ∧ getPassword v.d.ent v.d.inp ≠ .ok []

/-- A turn with such a line; what is drawn at random has the right size. -/
structure KeyTurn (v : Env) (line : Str) (r : Repl) : Prop where
  turn : HistoryTurn v line r
  draw : DrawOk v.d
  line : ∀ cmd args, parseLine line = some (cmd, args) → KeyLine v r cmd args

/-- The password `p` was given at the prompt of the line, or is the one the session was opened with or changed to, which `rekey` uses again. -/
def GivenIn (v : Env) (line : Str) (r : Repl) (p : Str) : Prop :=
  (∃ cmd args, parseLine line = some (cmd, args) ∧ cmd ∈ [b! "passwd", b! "adduser", b! "rekey"] ∧ getPassword v.d.ent v.d.inp = .ok p) ∨
  ∃ args, parseLine line = some (b! "rekey", args) ∧ p = r.u.creds.pass

/-- What `sync` meets fits the records `rs` of the session: all machines have the same master key. -/
def SharedSync (P : Prims) (C : Codec) (w : World) (v : SyncEnv) (nm : Str) (u : Session) (inp : Input) (rs : List Rec) : Prop :=
  ∀ syncs l rest, Selected w v u nm syncs →
    pullAll P C w { u with store := u.store.updateSnapshot.1 } syncs inp = (some l, rest) →
    ∃ rsOf, OneMaster P u rs (remotes l) rsOf

/-- A turn, `sync` included. -/
def KeyWholeTurn (P : Prims) (C : Codec) (v : Env) (line : Str) (r : Repl) : Prop :=
  KeyTurn v line r ∨
    ∃ args, parseLine line = some (b! "sync", args) ∧ SyncOk P C v.w v.v (args.head?.getD []) r.u v.d.inp ∧
      NamesApartAll P C v.w v.v (args.head?.getD []) r.u v.d.inp ∧
      ∀ rs, Keyed P r.u rs → SharedSync P C v.w v.v (args.head?.getD []) r.u v.d.inp rs

/-- The record came with a file that `sync` read. -/
def CameInSync (P : Prims) (C : Codec) (w : World) (v : SyncEnv) (nm : Str) (u : Session) (inp : Input) (x : Rec) : Prop :=
  ∃ syncs l rest q rq, Selected w v u nm syncs ∧ pullAll P C w { u with store := u.store.updateSnapshot.1 } syncs inp = (some l, rest) ∧
    q ∈ remotes l ∧ Keyring P u.creds.master q.log rq ∧ x ∈ rq

/-- The record `x` came up in the lines `turns`: its password was given, or it came with a `sync`. -/
def CameIn (P : Prims) (C : Codec) : List Turn → Repl → Rec → Prop
  | (some line, v) :: rest, r, x =>
    GivenIn v line r x.pass ∨
    (∃ args, parseLine line = some (b! "sync", args) ∧ CameInSync P C v.w v.v (args.head?.getD []) r.u v.d.inp x) ∨
    (runLine P C v line r).2 = .ok false ∧ CameIn P C rest (runLine P C v line r).1 x
  | _, _, _ => False

end Verif.App.Spec
