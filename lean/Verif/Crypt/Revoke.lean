import Verif.Crypt.Spec
/-!
# What somebody who once learnt the master key of a file can do
-/
namespace Verif.Crypt.Spec
open Verif

/-- Read a file with `n` users with the master key alone, without any passphrase: skip the records of the users, take the iv, undo the
three ciphers and drop the checksum. -/
def readWith (P : Prims) (master : Str) (n : Nat) (f : Str) : Option Str :=
  match layers suite master ((f.drop (16 + 184 * n)).take 40) with
  | none => none
  | some ls =>
    match decUnpad P ls (f.drop (16 + 184 * n + 40)) with
    | .ok work => some (work.drop 64)
    | _ => none

end Verif.Crypt.Spec
