import Verif.App.Session
import Verif.Blob.Spec
import Verif.Crypt.Spec
/-!
# What the session properties talk about
-/
namespace Verif.App.Spec
open Verif Verif.Txlogs Verif.Blob Verif.Crypt Verif.App

/-- The same store, up to the order in which the maps of the snapshot are listed. -/
structure SameStore (s' s : DB) : Prop where
  version : s'.version = s.version
  log : s'.log = s.log
  txPoint : s'.txPoint = 0
  nodup : s'.snapshot.NodupKeys
  inner : ∀ u e, s'.snapshot.get? u = some e → e.NodupKeys
  view : Txlogs.Spec.view s'.snapshot = Txlogs.Spec.view s.snapshot

/-- The codec reads back what it wrote for this store. -/
structure Faithful (C : Codec) (s : DB) : Prop where
  nonempty : C.marshal s ≠ []
  load : ∃ s', C.load (C.marshal s) = .ok (some s') ∧ SameStore s' s
  loadLog : C.loadLog (C.marshal s) = .ok s.log

/-- `uuid` is the entry of user `user`. -/
def IsUser (s : DB) (uuid user : Str) : Prop := Blob.Spec.Named s uuid (userPrefix ++ user)

/-- The entry holds a complete user record. -/
structure Holds (e : Str → Option Str) (salt iv mkey : Str) : Prop where
  salt_eq : hexDecode ((e keySalt).getD []) = some salt
  iv_eq : hexDecode ((e keyIV).getD []) = some iv
  mkey_eq : hexDecode ((e keyMKey).getD []) = some mkey
  salt_length : salt.length = 32
  iv_length : iv.length = 40
  mkey_length : mkey.length = 80

/-- User `user` has an entry in which `key` unlocks the master key. -/
def Account (P : Prims) (s : DB) (master user salt key : Str) : Prop :=
  user ≠ [] ∧ ∃ uuid e iv mkey, Blob.Spec.Visible s uuid e ∧ e keyName = some (userPrefix ++ user) ∧
    Holds e salt iv mkey ∧ encryptMasterKey P 1 key master iv = .ok (mkey, iv)

/-- User `user` can open the file with `pass`. -/
def Opens (P : Prims) (s : DB) (master user pass salt : Str) : Prop :=
  pass ≠ [] ∧ Account P s master user salt (P.kdf pass salt)

/-- The user entries of a store allow it to be saved: there are some, not more than fit into the header, all are complete, and
no two user names have the same hash. -/
structure WfUsers (P : Prims) (s : DB) : Prop where
  exists_user : ∃ uuid user, IsUser s uuid user
  few : ∀ l : List Str, l.Nodup → (∀ uuid ∈ l, ∃ user, IsUser s uuid user) → l.length ≤ 9999
  complete : ∀ uuid e user, Blob.Spec.Visible s uuid e → e keyName = some (userPrefix ++ user) →
    user ≠ [] ∧ ∃ salt iv mkey, Holds e salt iv mkey
  distinct : ∀ uuid uuid' user user', IsUser s uuid user → IsUser s uuid' user' →
    P.sha256 user = P.sha256 user' → uuid = uuid'

/-- Credentials of a single-user file. -/
structure SingleCreds (c : Creds) : Prop where
  master : c.master = []
  key : c.key.length = 80
  salt : c.salt.length = 32

/-- Credentials of a multi-user file. -/
structure MultiCreds (c : Creds) : Prop where
  master : c.master.length = 80
  ivm : c.ivm.length = 40
  key : c.key.length = 80

end Verif.App.Spec
