import Verif.App.Transfer
/-!
# Model of the files that bpass writes, with their permissions

A system call that creates a file gives it the permissions it names without those in the umask of the process; writing to a file
that is there leaves its permissions as they are. Directories and links are not modelled.
-/
namespace Verif.App.Modes
open Verif Verif.Txlogs

structure Node where
  mode : Nat
  data : Str
  deriving Repr, DecidableEq

abbrev Fs := Str → Option Node

/-- the permissions of a new file -/
def newMode (umask perm : Nat) : Nat := perm &&& (0x1ff ^^^ (umask &&& 0x1ff))

def setNode (fs : Fs) (path : Str) (n : Option Node) : Fs := fun p => if p = path then n else fs p

/-- `open` with `O_CREAT|O_TRUNC`, and what is then written: `ioutil.WriteFile` and `os.Create` -/
def put (umask perm : Nat) (path data : Str) (fs : Fs) : Fs :=
  setNode fs path (some { mode := match fs path with | some n => n.mode | none => newMode umask perm, data := data })

/-- `open` with `O_CREAT|O_EXCL`: nothing happens if the file is there -/
def putNew (umask perm : Nat) (path data : Str) (fs : Fs) : Fs :=
  match fs path with
  | some _ => fs
  | none => setNode fs path (some { mode := newMode umask perm, data := data })

/-- what bpass does with files -/
inductive Act where
  /-- `saveBlob` (main.go:272) -/
  | save (file data : Str)
  /-- `pushBlob` to a `file://` remote (sync.go:300) -/
  | push (path data : Str)
  /-- the temporary file of `edit` is made (commands.go:856) -/
  | edit (path value : Str)
  /-- it is written again after the editor (commands.go:913) or by the editor -/
  | wipe (path data : Str)
  /-- and removed (commands.go:865) -/
  | remove (path : Str)
  /-- `export` (export.go:32): `os.Create` asks for 0666 -/
  | exportTo (path data : Str)
  deriving Repr, DecidableEq

def act (umask : Nat) (a : Act) (fs : Fs) : Fs :=
  match a with
  | .save p d => put umask 0o600 p d fs
  | .push p d => put umask 0o600 p d fs
  | .edit p d => putNew umask 0o600 p d fs
  | .wipe p d => match fs p with | none => fs | some n => setNode fs p (some { n with data := d })
  | .remove p => setNode fs p none
  | .exportTo p d => put umask 0o666 p d fs

def run (umask : Nat) : List Act → Fs → Fs
  | [], fs => fs
  | a :: as, fs => run umask as (act umask a fs)

/-- what another user of the machine can read of a file: the last bit but two of the permissions -/
def seen (fs : Fs) (path : Str) : Option Str :=
  match fs path with
  | some n => if n.mode &&& 4 ≠ 0 then some n.data else none
  | none => none

end Verif.App.Modes
