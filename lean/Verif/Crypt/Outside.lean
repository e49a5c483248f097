import Verif.Crypt.Spec
/-!
# What can be seen of a file without a passphrase
-/
namespace Verif.Crypt.Spec
open Verif

/-- the size of what comes before the encrypted part: magic, salt and iv, or magic, the records of the users and the iv -/
def frontSize (users : Nat) : Nat := if users = 0 then 16 + 32 + 40 else 16 + 184 * users + 40

/-- the size of a file with a text of `n` bytes -/
def fileSize (users n : Nat) : Nat := frontSize users + 104 + 16 * (n / 16)

/-- A name that somebody without a passphrase finds among the users of a file: its hash is at the beginning of a record. -/
def Listed (P : Prims) (f name : Str) : Prop :=
  ∃ i n : Nat, parseSigned ((f.drop 12).take 4) = some (n : Int) ∧ i < n ∧ (f.drop (16 + 184 * i)).take 32 = P.sha256 name

end Verif.Crypt.Spec
