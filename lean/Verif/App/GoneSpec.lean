import Verif.App.YearsSpec
import Verif.App.WholeSpec
import Verif.Json.IndentProps
/-!
# Files after any number of later sessions

For property C111: what was in a file at some time, and what is in it later.
-/
namespace Verif.App.Spec
open Verif Verif.Txlogs Verif.Blob Verif.Crypt Verif.App

/-- A file that once held `s0`, what opens it and what it holds, after any number of later sessions by anybody, without `sync`. -/
inductive FileLater (P : Prims) (s0 : DB) : Str → Keys → DB → Prop where
  | held {f : Str} {k : Keys} : FileLife P f k s0 → FileLater P s0 f k s0
  | next {f : Str} {k : Keys} {s : DB} {inp inp' : Input} {u : Session} {turns : List Turn} {r : Repl} {ord : Order}
      {ord' : Results → Results} {iv f' : Str} :
      FileLater P s0 f k s → k.Opens inp → openFile P Json.Spec.codec none f inp = (.ok u, inp') →
      Along P Json.Spec.codec (FileTurn P) turns { u := u } → runRepl P Json.Spec.codec turns { u := u } = (r, .ok ()) →
      Counted r.u.store → (∀ m, (ord m).Perm m) → (∀ m, (ord' m).Perm m) → iv.length = 40 →
      saveBlob P Json.Spec.codec ord ord' iv r.u = .ok (some f') →
      FileLater P s0 f' (lastKeys P Json.Spec.codec turns { u := u } k) r.u.store

/-- A file without users that once held `s0`, after any number of later runs of the program with `sync`s. -/
inductive YearsLater (P : Prims) (s0 : DB) : Str → Str → DB → Prop where
  | held {f pass : Str} : Years P f pass s0 → YearsLater P s0 f pass s0
  | next {f pass q iv f' : Str} {s : DB} {u : Session} {auto : Bool} {v v' : Env} {turns : List Turn} {r : Repl} :
      YearsLater P s0 f pass s → openFile P Json.Spec.codec none f [some pass] = (.ok u, []) → Run P auto v v' iv turns u →
      session P Json.Spec.codec auto v v' iv turns u = (r, .ok (some f')) →
      Passed auto v v' turns pass q → q ≠ [] → r.u.creds.key = P.kdf q r.u.creds.salt → YearsLater P s0 f' q r.u.store

/-- The operation can be read: it is in the memory of the program, and `dumpall` prints it. -/
def Readable (t : Tx) (s : DB) : Prop := t ∈ s.log ∧ ∃ log, Json.loadLog (Json.dumpall s) = .ok log ∧ t ∈ log

end Verif.App.Spec
