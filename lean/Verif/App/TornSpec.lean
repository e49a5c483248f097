import Verif.App.SyncSpec
import Verif.App.File
/-!
# What a push that is cut off leaves behind (C116)
-/
namespace Verif.App.Spec
open Verif Verif.Txlogs Verif.Blob Verif.Crypt Verif.App

/-- What is at a `file` remote after a push of `f` (`ioutil.WriteFile`, sync.go:298-301) that may have been cut off: by the end of the
program, a full disk, a cable. -/
def MayLeave (old : Disk) (f : Str) (now : Disk) : Prop := now ∈ writeFile old f

/-- cut off at a place where the length alone gives it away: within the header of a file for one user, or not at a multiple of 8 -/
def Torn (f ct : Str) : Prop := ∃ k, k < f.length ∧ (k < 88 ∨ k % 8 ≠ 0) ∧ ct = f.take k

/-- Whatever is typed meanwhile, these bytes are read from the remote. -/
def AlwaysReads (w : World) (s : DB) (uuid ct : Str) : Prop :=
  ∀ inp, ∃ h inp', pullBlob w uuid ((s.snapshot.get? uuid).getD []) inp = (some (.bytes ct, h), inp')

end Verif.App.Spec
