import Verif.App.AccessSpec
import Verif.App.HistorySpec
/-!
# What the property about passphrases after `sync` talks about
-/
namespace Verif.App.Spec
open Verif Verif.Txlogs Verif.Blob Verif.Crypt Verif.App

/-- What the user typed is read from the front: what is left is an end of it. -/
def Listens (w : World) : Prop := ∀ uuid e inp x rest, w.sshPull uuid e inp = (x, rest) → rest <:+ inp

/-- No remote that `sync nm` asks holds a file with users. -/
def NoUsersThere (w : World) (v : SyncEnv) (nm : Str) (u : Session) : Prop :=
  ∀ syncs uuid inp f h rest, Selected w v u nm syncs → uuid ∈ syncs →
    pullBlob w uuid ((u.store.updateSnapshot.1.snapshot.get? uuid).getD []) inp = (some (.bytes f, h), rest) →
    isMultiUser f ≠ .ok true

/-- Why `p` can be the passphrase after a line when it was `pass` before: nothing changed it, or `passwd` was given it, or it was
typed while `sync` asked. -/
inductive PassStep (v : Env) (line pass : Str) : Str → Prop where
  | same : PassStep v line pass pass
  | passwd {args : List Str} {p : Str} : parseLine line = some (b! "passwd", args) → getPassword v.d.ent v.d.inp = .ok p →
      PassStep v line pass p
  | sync {args : List Str} {p : Str} : parseLine line = some (b! "sync", args) → some p ∈ v.d.inp → PassStep v line pass p

/-- The same for any number of lines. -/
inductive PassSteps : List Turn → Str → Str → Prop where
  | nil {turns : List Turn} {pass : Str} : PassSteps turns pass pass
  | cons {v : Env} {line pass p q : Str} {rest : List Turn} : PassStep v line pass p → PassSteps rest p q →
      PassSteps ((some line, v) :: rest) pass q

/-- A turn in a file without users that keeps it one: a line other than `sync` and `adduser`, or a `sync` that meets files without
users only. -/
structure OwnSyncTurn (v : Env) (line : Str) (r : Repl) : Prop where
  salt : v.d.salt.length = 32
  noAdd : ∀ args, parseLine line ≠ some (b! "adduser", args)
  remotes : ∀ args, parseLine line = some (b! "sync", args) → Listens v.w ∧ NoUsersThere v.w v.v (args.head?.getD []) r.u

end Verif.App.Spec
