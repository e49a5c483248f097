import Verif.App.WholeSpec
/-!
# Several programs that work on one file at the same time

`loadBlob` (main.go:145-250) reads the whole file when the program starts. `saveBlob` (main.go:252-273) writes the whole file when
it ends. Nothing locks the file and nothing looks whether it was changed in between. What is typed in between touches only the
memory of the program, so a session is one step here, at the moment of its save. In `Moves` each save is whole (`C73` is about
saves that are not, and the end of this file about two at once).
-/
namespace Verif.App.Spec
open Verif Verif.Txlogs Verif.Blob Verif.Crypt Verif.App

/-- The file with what opens it and what it holds, and for each program that runs: its session at the start, and what opened the
file and what it held at that moment. -/
structure Desk where
  file : Str
  keys : Keys
  store : DB
  running : Nat → Option (Session × Keys × DB)

/-- Program `i` starts, is killed or stopped by an error, or ends normally. -/
inductive Move (P : Prims) : Desk → Desk → Prop where
  | starts {y : Desk} (i : Nat) {inp inp' : Input} {u : Session} :
      y.keys.Opens inp → openFile P Json.Spec.codec none y.file inp = (.ok u, inp') →
      Move P y { y with running := Txlogs.Spec.upd y.running i (some (u, y.keys, y.store)) }
  | dies {y : Desk} (i : Nat) : Move P y { y with running := Txlogs.Spec.upd y.running i none }
  | ends {y : Desk} (i : Nat) {u : Session} {k : Keys} {s : DB} {turns : List Turn} {r : Repl} {ord : Order}
      {ord' : Results → Results} {iv f : Str} :
      y.running i = some (u, k, s) →
      Along P Json.Spec.codec (FileTurn P) turns { u := u } → runRepl P Json.Spec.codec turns { u := u } = (r, .ok ()) →
      Counted r.u.store → (∀ m, (ord m).Perm m) → (∀ m, (ord' m).Perm m) → iv.length = 40 →
      saveBlob P Json.Spec.codec ord ord' iv r.u = .ok (some f) →
      Move P y ⟨f, lastKeys P Json.Spec.codec turns { u := u } k, r.u.store, Txlogs.Spec.upd y.running i none⟩

/-- Any number of programs in any order. -/
inductive Moves (P : Prims) : Desk → Desk → Prop where
  | stop {y : Desk} : Moves P y y
  | next {y y' y'' : Desk} : Moves P y y' → Move P y' y'' → Moves P y y''

/-- Nobody is working. -/
def Quiet (y : Desk) : Prop := ∀ i, y.running i = none

/-- The same when a program is started only while no other is running. -/
inductive InTurn (P : Prims) : Desk → Desk → Prop where
  | stop {y : Desk} : InTurn P y y
  | next {y y' y'' : Desk} : InTurn P y y' → Move P y' y'' →
      ((∃ i x, y''.running i = some x ∧ y'.running i = none) → Quiet y') → InTurn P y y''

/-- A line that cannot change anything. -/
def Looks (line : Str) : Prop := ∀ cmd args, parseLine line = some (cmd, args) → readOnlyFlag cmd ≠ some false

/-! Two saves at the same time. `ioutil.WriteFile` (main.go:272) opens the file with `O_TRUNC`, which cuts it to nothing, and then
writes the bytes from the start on, in one call. -/

inductive FileOp where
  | cut
  | put (data : Str)

/-- bytes written over the start of a file -/
def overlay (data old : Str) : Str := data ++ old.drop data.length

def fileOps : List FileOp → Str → Str
  | [], f => f
  | .cut :: rest, _ => fileOps rest []
  | .put d :: rest, f => fileOps rest (overlay d f)

/-- All ways to mix what two programs do. -/
def mixes : List FileOp → List FileOp → List (List FileOp)
  | [], l => [l]
  | l, [] => [l]
  | a :: l, b :: l' => (mixes l (b :: l')).map (a :: ·) ++ (mixes (a :: l) l').map (b :: ·)

end Verif.App.Spec
