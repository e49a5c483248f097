import Verif.App.SoundSpec
/-!
# Taking access away: definitions
-/
namespace Verif.App.Spec
open Verif Verif.Txlogs Verif.Blob Verif.Crypt

/-- A line that is neither `rekeyall` nor `sync`, and does not delete the entry of the user who is at work. -/
structure SameKeyLine (line : Str) (r : Repl) : Prop where
  noRekeyAll : ∀ args, parseLine line ≠ some (b! "rekeyall", args)
  noSync : ∀ args, parseLine line ≠ some (b! "sync", args)
  notSelf : ∀ nm args, parseLine line = some (b! "rm", nm :: args) → splitUsername nm = [] ∨ splitUsername nm ≠ r.u.creds.user

end Verif.App.Spec
