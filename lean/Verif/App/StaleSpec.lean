import Verif.App.SyncSpec
import Verif.App.HistorySpec
import Verif.App.SessionSpec
import Verif.App.MergingProps
/-!
# Earlier versions of a file, put in its place at a remote (C117)
-/
namespace Verif.App.Spec
open Verif Verif.Txlogs Verif.Blob Verif.Crypt Verif.App

/-- `old` is the history of an earlier version of the file, or of the file itself; something was in it. -/
def OldCopy (log old : List Tx) : Prop := old ≠ [] ∧ old <+: log

/-- Whatever can be read from any remote, with any name and passphrase, is an earlier version of the file here. With which
credentials it was written is not said: they can be those of any earlier time. -/
def OnlyOld (P : Prims) (C : Codec) (w : World) (u : Session) : Prop :=
  ∀ uuid ct, Reads w uuid (syncEntry u uuid) ct → ∀ user pass v p pt log,
    decrypt P user pass (orNil u.creds.key) u.creds.salt ct = .ok (v, p, pt) → pt ≠ [] → C.loadLog pt = .ok log → OldCopy u.store.log log

/-- The session has a master key exactly if the file has users, and then its own user is one of them. -/
structure Settled (c : Creds) (log : List Tx) : Prop where
  mode : c.master ≠ [] ↔ HasUsers log
  me : c.master ≠ [] → ∃ uuid, IsUser { log := log } uuid c.user

/-- Nothing is read from the remote that differs from the file here in what `sync` looks at: the number of operations and the times
of the first and the last. -/
def SameThere (P : Prims) (C : Codec) (w : World) (u : Session) (uuid : Str) : Prop :=
  ∀ ct, Reads w uuid (syncEntry u uuid) ct → ∀ user pass v p pt log,
    decrypt P user pass (orNil u.creds.key) u.creds.salt ct = .ok (v, p, pt) → pt ≠ [] → C.loadLog pt = .ok log →
    Txlogs.Spec.LooksSame log u.store.log

end Verif.App.Spec
