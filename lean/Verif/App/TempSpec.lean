import Verif.App.TempFile
/-!
# What it means that `edit` leaves nothing behind
-/
namespace Verif.App.Spec
open Verif Verif.App

/-- no name means a file that is still to be made -/
def WfVolume (D : Volume) : Prop := ∀ n j, D.dir n = some j → j < D.free

/-- Nothing was left behind: every name means the file it meant, the files there were hold what they held, and whatever was made since
holds nothing but zeros. -/
def LeavesNothing (D D' : Volume) : Prop :=
  D'.dir = D.dir ∧ (∀ j, j < D.free → D'.data j = D.data j) ∧ ∀ j, D.free ≤ j → ∀ b ∈ D'.data j, b = 0

/-- An editor that changes the file it is given and nothing else: it writes into that file. -/
def InPlace (run : Volume → Str → Volume × Option Int) (D : Volume) (nm : Str) : Prop :=
  (run D nm).1.dir = D.dir ∧ ∀ j, D.dir nm ≠ some j → (run D nm).1.data j = D.data j

/-- An editor that leaves all other names and files as they are, and a file under the name it is given: perhaps not the same file -/
def ByName (run : Volume → Str → Volume × Option Int) (D : Volume) (nm : Str) : Prop :=
  (∀ n, n ≠ nm → (run D nm).1.dir n = D.dir n) ∧ ((run D nm).1.dir nm).isSome ∧
  ∀ n j, n ≠ nm → D.dir n = some j → (run D nm).1.data j = D.data j

end Verif.App.Spec
