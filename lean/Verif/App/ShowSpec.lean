import Verif.App.Show
import Verif.App.EditSpec
/-!
# What the properties of the reading commands talk about
-/
namespace Verif.App.Spec
open Verif Verif.Txlogs Verif.Blob Verif.Crypt Verif.App

/-- The lines are exactly the names for which `Q` holds, each once and in alphabetical order, or a message if there is none. -/
def Lists (lines : List Str) (Q : Str → Prop) : Prop :=
  ((∀ n, ¬ Q n) ∧ lines = [b! "No entries found"]) ∨
  ((∃ n, Q n) ∧ (∀ n, n ∈ lines ↔ Q n) ∧ lines.Nodup ∧ lines.Pairwise (fun a b => strLe a b = true))

/-- The time stamp of the entry, if it has one, is a number. -/
def Dated (e : Str → Option Str) : Prop := ∀ ts, e keyUpdated = some ts → (atoi ts).isSome

/-- What `login` copies under a key: the value, and a code for the two-factor secret. -/
def loginValue (v : Env) (e : Str → Option Str) (k : Str) : Option Str :=
  match e k with
  | none => none
  | some x => if k = keyTwoFactor ∧ x ≠ [] then v.totp x else some x

/-- The keys `login` is about, in order. -/
def loginKeys : List Str := [keyUser, keyEmail, keyPass, keyTwoFactor]

/-- The time passes without the two-factor secret being unusable. -/
def CodeOk (v : Env) (e : Str → Option Str) : Prop :=
  ∀ x, e keyTwoFactor = some x → x ≠ [] → (v.totp x).isSome

end Verif.App.Spec
