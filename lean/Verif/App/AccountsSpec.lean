import Verif.App.Accounts
import Verif.App.SessionSpec
import Verif.Blob.Reach
/-!
# What the properties of the account commands talk about
-/
namespace Verif.App.Spec
open Verif Verif.Txlogs Verif.Blob Verif.Crypt Verif.App

/-- A session in a multi-user file whose current user has an entry. -/
structure MultiSession (P : Prims) (u : Session) : Prop where
  writable : u.readOnly = false
  good : Good u.store
  idle : u.store.txPoint = 0
  creds : MultiCreds u.creds
  users : WfUsers P u.store
  uuids : ∀ uuid user, IsUser u.store uuid user → uuid ≠ []
  me : ∃ uuid, IsUser u.store uuid u.creds.user

/-- A session in a single-user file that was opened with `pass`, or whose password was changed to it. -/
structure SingleSession (P : Prims) (u : Session) (pass : Str) : Prop where
  writable : u.readOnly = false
  good : Good u.store
  idle : u.store.txPoint = 0
  creds : SingleCreds u.creds
  pass_ne : pass ≠ []
  key : u.creds.key = P.kdf pass u.creds.salt

/-- Who can open the file with what: a partial map from user names to passwords. -/
abbrev Passwords := Str → Option Str

/-- Everybody in the table can open the file the session would save. -/
def Holders (P : Prims) (u : Session) (t : Passwords) : Prop :=
  ∀ user pass, t user = some pass → ∃ salt, Opens P u.store u.creds.master user pass salt

/-- the account commands that `C51` is about -/
inductive Acc where
  | passwd (user : Str)
  | adduser (user : Str)
  | rekey (user : Str)

def run (P : Prims) (ord : Order) (d : Draw) (u : Session) : Acc → Session × Res AppErr Unit
  | .passwd user => passwd P ord d u user
  | .adduser user => adduser P ord d u user
  | .rekey user => rekey P ord d u user

/-- Sizes of what is drawn. -/
structure DrawOk (d : Draw) : Prop where
  salt_length : d.salt.length = 32
  iv_length : d.iv.length = 40
  master_length : d.master.length = 80
  ivm_length : d.ivm.length = 40

/-- A new user entry is fine in this store: the uuid is new, the name is not empty, no other user name has the same hash, and
there is room in the header. -/
structure NewOk (P : Prims) (s : DB) (uuid user : Str) : Prop where
  fresh : ¬ Exists s uuid
  uuid_ne : uuid ≠ []
  user_ne : user ≠ []
  hash : ∀ v user', IsUser s v user' → P.sha256 user' = P.sha256 user → user' = user
  room : ∀ l : List Str, l.Nodup → (∀ v ∈ l, ∃ user', IsUser s v user') → l.length ≤ 9998

/-- What a command does to the table, given the current user, the password of the session and the password obtained from the
prompt. `passwd` always, and `rekey` without a name, is about the current user. -/
def effect (me mine typed : Str) (t : Passwords) : Acc → Passwords
  | .passwd _ => Txlogs.Spec.upd t me (some typed)
  | .adduser user => Txlogs.Spec.upd t user (some typed)
  | .rekey user => if user = [] then Txlogs.Spec.upd t me (some mine) else Txlogs.Spec.upd t user (some typed)

/-- The command has what it needs: a non-empty password, a new user name, an existing one for `rekey`. -/
def CanRun (P : Prims) (d : Draw) (u : Session) (typed : Str) : Acc → Prop
  | .passwd _ => getPassword d.ent d.inp = .ok typed ∧ typed ≠ []
  | .adduser user => getPassword d.ent d.inp = .ok typed ∧ typed ≠ [] ∧ NewOk P u.store d.uuid user ∧
      ∀ v, ¬ IsUser u.store v user
  | .rekey user =>
      if user = [] then u.creds.pass ≠ []
      else getPassword d.ent d.inp = .ok typed ∧ typed ≠ [] ∧ ∃ v, IsUser u.store v user

/-- Sequences of account commands, with the table of passwords they lead to. -/
inductive Runs (P : Prims) (ord : Order) : Session → Passwords → Session → Passwords → Prop
  | refl (u : Session) (t : Passwords) : Runs P ord u t u t
  | step {u t u' t' u''} (d : Draw) (typed : Str) (a : Acc) : Runs P ord u t u' t' → DrawOk d → CanRun P d u' typed a →
      run P ord d u' a = (u'', .ok ()) → Runs P ord u t u'' (effect u'.creds.user u'.creds.pass typed t' a)

end Verif.App.Spec
