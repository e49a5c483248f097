import Verif.App.StaleSpec
import Verif.App.TornSpec
import Verif.App.Repl
/-!
# The end of a run (C118, C119)
-/
namespace Verif.App.Spec
open Verif Verif.Txlogs Verif.Blob Verif.Crypt Verif.App

/-- `r` is the session when the prompt was left in order to save: the file was synchronised at the start, then the lines were
carried out. -/
def LeftPrompt (P : Prims) (C : Codec) (v : Env) (turns : List Turn) (u : Session) (r : Repl) : Prop :=
  ∃ r0, autoSync P C v true { u := u } = (r0, .ok ()) ∧ runRepl P C turns r0 = (r, .ok ())

/-- There is no file at the remote. -/
def AlwaysAbsent (w : World) (s : DB) (uuid : Str) : Prop :=
  ∀ i, ∃ h i', pullBlob w uuid ((s.snapshot.get? uuid).getD []) i = (some (.notFound, h), i')

/-- At the remote is nothing, or a file that opens with the credentials of the session and has another history. -/
def Behind (P : Prims) (C : Codec) (w : World) (u : Session) (s : DB) (uuid : Str) : Prop :=
  AlwaysAbsent w s uuid ∨ ∃ ct ver p pt old, AlwaysReads w s uuid ct ∧
    decrypt P u.creds.user u.creds.pass (orNil u.creds.key) u.creds.salt ct = .ok (ver, p, pt) ∧ pt ≠ [] ∧
    C.loadLog pt = .ok old ∧ old ≠ u.store.log

/-- The line does not call `sync`. -/
def NoSync : Turn → Prop
  | (none, _) => True
  | (some line, _) => ∀ args, parseLine line ≠ some (b! "sync", args)

end Verif.App.Spec
