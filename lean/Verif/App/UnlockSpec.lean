import Verif.App.Sync
import Verif.Crypt.Spec
/-!
# What C108 is about: the questions `sync` asks to open a remote
-/
namespace Verif.App.Spec
open Verif Verif.Txlogs Verif.Blob Verif.Crypt Verif.App

/-- Opening the file by hand: with a user name and a passphrase, nothing else being known. -/
def byHand (P : Prims) (f user pass : Str) : Res CErr (Int × Params × Str) := decrypt P user pass none [] f

/-- The file refuses the passphrase. -/
def Refuses (P : Prims) (f user pass : Str) : Prop := byHand P f user pass = .err .wrongPassphrase

/-- The file holds another salt for the user than the session has. -/
def OtherSalt (P : Prims) (f user : Str) (c : Creds) : Prop := Crypt.Spec.saltOf P f user ≠ some c.salt

/-- The session was opened with its passphrase: the key is the one that belongs to it. -/
def Typed (P : Prims) (c : Creds) : Prop := c.pass ≠ [] ∧ c.key = P.kdf c.pass c.salt

end Verif.App.Spec
