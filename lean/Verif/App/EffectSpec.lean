import Verif.App.SoundSpec
import Verif.App.ReplSpec
/-!
# What the properties of the effect of single commands talk about
-/
namespace Verif.App.Spec
open Verif Verif.Txlogs Verif.Blob Verif.Crypt Verif.App

/-- Only values of the entry `id` may differ: every other entry is as before, and every name is where it was. -/
structure OnlyEntry (id : Str) (s s' : DB) : Prop where
  others : ∀ w f, w ≠ id → (Blob.Spec.Visible s' w f ↔ Blob.Spec.Visible s w f)
  names : ∀ w n, Blob.Spec.Named s' w n ↔ Blob.Spec.Named s w n

/-- The commands that change values of one entry. -/
inductive Edit where
  | set (key value : Str)
  | edit (key : Str)
  | rmk (key : Str)
  | label
  | rmlabel (l : Str)

/-- What such a command does to the session, given the query. -/
def Edit.run (v : Env) (u : Session) (q : Str) : Edit → Session × Res AppErr Unit
  | .set key value => setCmd v u q key value
  | .edit key => App.edit v u q key
  | .rmk key => deleteKeyCmd v u q key
  | .label => addLabels v u q
  | .rmlabel l => deleteLabel v u q l

/-- The commands at the prompt that change values of one entry. -/
def editCmds : List Str := [b! "set", b! "edit", b! "rmk", b! "label", b! "rmlabel"]

/-- The current entry of the prompt exists. -/
def CtxOk (r : Repl) : Prop := r.ctx = [] ∨ ∃ uuid, Blob.Spec.Named r.u.store uuid r.ctx

/-- The line does not rename the current entry. -/
def KeepsCtx (line : Str) (r : Repl) : Prop := ∀ dst rest, parseLine line ≠ some (b! "mv", r.ctx :: dst :: rest)

/-- A value if something was typed. -/
def typed (x : Str) : Option Str := if x = [] then none else some x

end Verif.App.Spec
