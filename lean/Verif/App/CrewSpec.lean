import Verif.App.FleetSpec
import Verif.App.LockoutSpec
/-!
# Several machines that share a file with users
-/
namespace Verif.App.Spec
open Verif Verif.Txlogs Verif.Txlogs.Spec Verif.Blob Verif.Crypt Verif.App

/-- The operation leaves the accounts of the log `l` alone: it writes no part of a record, names no user, and neither removes nor
renames the entry of one. -/
structure LeavesAccounts (l : List Tx) (t : Tx) : Prop where
  record : t.kind = .setk ∨ t.kind = .delk → t.key ∉ recordKeys
  name : t.kind = .setk → t.key = keyName → hasPrefix t.value userPrefix = false
  entry : UserUuid l t.uuid → t.kind ≠ .del ∧ (t.kind = .setk ∨ t.kind = .delk → t.key ≠ keyName)

/-- What a session has in memory after a user opened the file with the password set last. -/
structure CredsOf (P : Prims) (master : Str) (base : List Tx) (rs : List Rec) (c : Creds) : Prop where
  creds : MultiCreds c
  master : c.master = master
  user : ∃ r, Newest rs r ∧ IsUser { log := base } r.uuid c.user ∧ c.pass = r.pass ∧ c.salt = r.salt ∧ c.key = P.kdf r.pass r.salt

/-- The file `f` is the log `R`, saved by somebody who had the master key. -/
def SavedWith (P : Prims) (C : Codec) (master : Str) (f : Str) (R : List Tx) : Prop :=
  ∃ (ord : Order) (ord' : Results → Results) (iv : Str) (c : Creds) (s : DB), (∀ m, (ord m).Perm m) ∧ (∀ m, (ord' m).Perm m) ∧ MultiCreds c ∧ c.master = master ∧
    Sound s ∧ s.log = R ∧ Faithful C s ∧ saveBlob P C ord ord' iv { creds := c, store := s } = .ok (some f)

/-- All machines and the share are copies of one file with users, and every machine belongs to one of them. -/
structure CrewCopies (P : Prims) (C : Codec) (master : Str) (rs : List Rec) (F : Fleet) (base : List Tx) : Prop where
  ring : Keyring P master base rs
  roomy : Roomy P base
  creds : ∀ i, CredsOf P master base rs (F.machine i).creds
  sound : ∀ i, Sound (F.machine i).store
  logs : ∀ i, F.log i = base
  names : NamesApart base
  share : SavedWith P C master F.share base

/-- Nobody touches the accounts. -/
def CrewEventOk (P : Prims) (C : Codec) (base : List Tx) (F : Fleet) : Event → Prop
  | .work i turns => ∀ t ∈ (runRepl P C turns { u := F.machine i }).1.u.store.log, t ∈ F.log i ∨ LeavesAccounts base t
  | .sync _ v _ => (∀ m, (v.ord m).Perm m) ∧ ∀ m, (v.ord' m).Perm m

def CrewRunOk (P : Prims) (C : Codec) (base : List Tx) : List Event → Fleet → Prop
  | [], _ => True
  | e :: es, F => CrewEventOk P C base F e ∧ CrewRunOk P C base es (F.step P C e)

end Verif.App.Spec
