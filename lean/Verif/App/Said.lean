import Verif.App.Accounts
/-!
# Model of what the account commands say at their end (commands.go:51-197)
-/
namespace Verif.App
open Verif Verif.Txlogs Verif.Blob Verif.Crypt

/-- the messages, but for their colours -/
inductive Said where
  /-- "refusing to use empty password" (commands.go:58, 159) -/
  | refused
  /-- "passphrase updated, bits will be re-encrypted with it on exit" (commands.go:87) -/
  | passphrase
  /-- "key updated, bits will be re-encrypted with it on exit" (commands.go:195) -/
  | key
  /-- "user already exists" (commands.go:94) -/
  | taken
  /-- "re-used your key to create first user: %s" (commands.go:133) -/
  | reused (user : Str)
  /-- "added user %s\npass: %s" (commands.go:135) -/
  | added (user pass : Str)
  deriving Repr, DecidableEq

/-- `passwd` says something if it comes to its end (commands.go:57-60, 87) -/
def saidPasswd (P : Prims) (ord : Order) (d : Draw) (u : Session) (user : Str) : Option Said :=
  match (passwd P ord d u user).2 with
  | .ok () => some (if getPassword d.ent d.inp = .ok [] then .refused else .passphrase)
  | _ => none

/-- `rekey` (commands.go:158-161, 195) -/
def saidRekey (P : Prims) (ord : Order) (d : Draw) (u : Session) (user : Str) : Option Said :=
  match (rekey P ord d u user).2 with
  | .ok () => some (if (if user = [] then Res.ok u.creds.pass else getPassword d.ent d.inp) = .ok [] then .refused else .key)
  | _ => none

/-- `adduser` (commands.go:93-95, 132-136): `pass` is the empty string until a password was asked for. -/
def saidAdd (P : Prims) (ord : Order) (d : Draw) (u : Session) (user : Str) : Option Said :=
  match (adduser P ord d u user).2 with
  | .ok () =>
    match (newUser ord d.now d.uuid u.store user).2 with
    | .err .nameNotUnique => some .taken
    | _ =>
      match (if u.creds.master = [] then Res.ok [] else getPassword d.ent d.inp) with
      | .ok pass => some (if pass = [] then .reused user else .added user pass)
      | _ => none
  | _ => none

end Verif.App
