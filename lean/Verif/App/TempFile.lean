import Verif.App.Commands
/-!
# Model of the temporary file of `edit`

commands.go:848-943 and osutil/osutil_linux.go:38-55. What `edit` does to the store is `App.edit`; its argument `v.editor` is here made
from what happens on the disk.

Simplifications: creating, closing and removing a file and writing to it do not fail, but for a name that is taken or is not there; the
disk is changed by nobody but bpass and the editor, and by the editor only until it ends.
-/
namespace Verif.App
open Verif Verif.Blob

/-- Files are numbered. `data` is what is in the blocks of a file, which stays there when the file is removed; `dir` says which file a
name means; the next new file gets the number `free`. -/
structure Volume where
  data : Nat → Str := fun _ => []
  dir : Str → Option Nat := fun _ => none
  free : Nat := 0

namespace Volume

/-- `OpenFile` with `O_CREATE|O_EXCL`, then `WriteString` and `Close` (commands.go:856-901) -/
def create (D : Volume) (nm text : Str) : Volume :=
  { data := fun j => if j = D.free then text else D.data j
    dir := fun n => if n = nm then some D.free else D.dir n
    free := D.free + 1 }

/-- `n` zeros written to the file from its beginning (commands.go:883-896) -/
def wipe (D : Volume) (j n : Nat) : Volume :=
  { D with data := fun i => if i = j then List.replicate n 0 ++ (D.data j).drop n else D.data i }

/-- `os.Remove` (commands.go:865) -/
def remove (D : Volume) (nm : Str) : Volume := { D with dir := fun n => if n = nm then none else D.dir n }

end Volume

/-- a program that is given the name of a file: what it leaves on the disk and its exit code -/
abbrev Prog := Volume → Str → Volume × Int

/-- the editors that are tried (osutil_linux.go:41) -/
def editors : List Str := [b! "vim", b! "code", b! "atom", b! "sublime", b! "emacs", b! "nano"]

/-- the program that is run: `$EDITOR` if it is set, else the first that is there (osutil_linux.go:39-48) -/
def editorName (env : Str) (progs : Str → Option Prog) : Str :=
  if env ≠ [] then env else (editors.find? fun e => (progs e).isSome).getD []

/-- `RunEditor` (osutil_linux.go:38-55): no exit code if there is no such program. `$EDITOR` is not split into words. -/
def runEditor (env : Str) (progs : Str → Option Prog) (D : Volume) (nm : Str) : Volume × Option Int :=
  match progs (editorName env progs) with
  | none => (D, none)
  | some p => ((p D nm).1, some (p D nm).2)

/-- how the part of `edit` that uses the temporary file ends -/
inductive Edited
  /-- the file could not be created (commands.go:857-860) -/
  | taken
  /-- the editor could not be run (commands.go:905-909) -/
  | notRun
  /-- after the editor the file was not there (commands.go:913-917) -/
  | gone
  /-- the editor reported an error (commands.go:919-922) -/
  | failed
  /-- what was in the file (commands.go:924) -/
  | text (s : Str)
deriving DecidableEq

/-- `edit` from the creation of the temporary file to its removal (commands.go:853-928 with the deferred functions of lines 863-869 and
883-896). When the editor cannot be run the file has been closed and is not open again, so the zeros cannot be written; when it failed,
its text was not read, and there are as many zeros as the old value has bytes. -/
def editFile (D : Volume) (nm old : Str) (run : Volume → Str → Volume × Option Int) : Volume × Edited :=
  match D.dir nm with
  | some _ => (D, .taken)
  | none =>
    match run (D.create nm old) nm with
    | (D, none) => (D.remove nm, .notRun)
    | (D, some code) =>
      match D.dir nm with
      | none => (D, .gone)
      | some j =>
        if code ≠ 0 then ((D.wipe j old.length).remove nm, .failed)
        else ((D.wipe j (max old.length (D.data j).length)).remove nm, .text (D.data j))

/-- what `edit` makes of it (commands.go:905-941): only an editor that cannot be run is an error -/
def Edited.answer : Edited → Option (Option Str)
  | .notRun => none
  | .text s => some (some s)
  | _ => some none

/-- the argument `editor` of the commands -/
def editorOf (D : Volume) (nm : Str) (run : Volume → Str → Volume × Option Int) (old : Str) : Option (Option Str) :=
  (editFile D nm old run).2.answer

end Verif.App
