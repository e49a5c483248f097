import Verif.App.Repl
import Verif.App.AccountsSpec
/-!
# What the properties of whole sessions at the prompt talk about
-/
namespace Verif.App.Spec
open Verif Verif.Txlogs Verif.Blob Verif.Crypt Verif.App

/-- A file in order: it can be read, every entry has a name, names are unique and valid UTF-8, and no entry has the empty uuid
(which the program uses for "nothing selected"). -/
structure WellFormed (s : DB) : Prop where
  good : Good s
  unique : ∀ u v n, Blob.Spec.Named s u n → Blob.Spec.Named s v n → u = v
  uuids : ∀ u n, Blob.Spec.Named s u n → u ≠ []
  utf8 : ∀ u n, Blob.Spec.Named s u n → ValidUtf8 n

/-- What a turn meets is possible: maps are visited in some order, and the generator returns a new uuid. -/
structure EnvOk (v : Env) (s : DB) : Prop where
  ord : ∀ m, (v.ord m).Perm m
  ord' : ∀ m, (v.ord' m).Perm m
  uuid_ne : v.d.uuid ≠ []
  fresh : ¬ Blob.Exists s v.d.uuid

/-- `Q` holds at every turn of a run at the prompt. -/
def Along (P : Prims) (C : Codec) (Q : Env → Str → Repl → Prop) : List Turn → Repl → Prop
  | [], _ => True
  | (none, _) :: _, _ => True
  | (some line, v) :: rest, r => Q v line r ∧ Along P C Q rest (runLine P C v line r).1

/-- A turn other than `sync`: the line is valid UTF-8, and what it meets is possible in the file at that moment. -/
structure LegalTurn (v : Env) (line : Str) (r : Repl) : Prop where
  utf8 : ValidUtf8 line
  env : EnvOk v r.u.store
  noSync : ∀ args, parseLine line ≠ some (b! "sync", args)

/-- The password prompt does not meet one of its own defects (see `C54_false`, `C63`), whatever part of the input is left for
it. -/
def PromptOk (v : Env) : Prop := ∀ inp, inp <:+ v.d.inp → getPassword v.d.ent inp ≠ .panic

/-- What is drawn at random has the right size. -/
structure SizesOk (v : Env) : Prop where
  iv : v.d.iv.length = 40
  ivs : ∀ i, (v.ds i).iv.length = 40

/-- The command removes the name `n` from the file. -/
def Drops (cmd : Str) (args : List Str) (n : Str) : Prop := (cmd = b! "mv" ∨ cmd = b! "rm") ∧ args.head? = some n

/-- The line avoids the known ways to crash a session without `sync`: `show` with a negative number, and `passwd` and `rekey` in
a multi-user file for a user without an entry. -/
def Careful (r : Repl) (cmd : Str) (args : List Str) : Prop :=
  (cmd = b! "show" → ∀ i, (if r.ctx = [] then args.drop 1 else args).head?.bind atoi = some i → 0 ≤ i) ∧
  (cmd = b! "passwd" → r.u.creds.master ≠ [] → ∃ uuid, IsUser r.u.store uuid r.u.creds.user) ∧
  (cmd = b! "rekey" → r.u.creds.master ≠ [] →
    ∃ uuid, IsUser r.u.store uuid (if args.head?.getD [] = [] then r.u.creds.user else args.head?.getD []))

/-- A turn that avoids the known ways to crash. -/
structure CarefulTurn (v : Env) (line : Str) (r : Repl) : Prop where
  sizes : SizesOk v
  prompts : PromptOk v
  careful : ∀ cmd args, parseLine line = some (cmd, args) → Careful r cmd args

end Verif.App.Spec
