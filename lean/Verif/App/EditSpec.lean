import Verif.App.EffectSpec
/-!
# What the properties of the editing commands talk about
-/
namespace Verif.App.Spec
open Verif Verif.Txlogs Verif.Blob Verif.Crypt Verif.App

/-- The entry `uuid`, which was `e`, now has `x` under `key` (`none` = the key is gone) and the time stamp `t`. Everything else
of it, every other entry and the credentials are as before. -/
structure KeyNow (uuid key : Str) (x : Option Str) (t : Int) (e : Str → Option Str) (u u' : Session) : Prop where
  entry : Blob.Spec.Visible u'.store uuid (Txlogs.Spec.upd (Txlogs.Spec.upd e keyUpdated (some (fmtInt t))) key x)
  others : ∀ w f, w ≠ uuid → (Blob.Spec.Visible u'.store w f ↔ Blob.Spec.Visible u.store w f)
  creds : u'.creds = u.creds

/-- A key the user may not write: a spelling of one of the keys the program keeps for itself. -/
def Refused (key : Str) : Prop := ∃ p ∈ protectedKeys, equalFold key p = true

/-- An answer that does not end the typing of labels. -/
def goesOn : Option Str → Bool
  | none => false
  | some l => l ≠ [] ∧ l ≠ b! "."

/-- The labels typed. -/
def typedLabels (inp : Input) : List Str := (inp.takeWhile goesOn).filterMap id

/-- The typing of labels was ended by an interrupt, not by an empty line or a dot. -/
def Interrupted (ctrlC : Bool) (inp : Input) : Prop :=
  ctrlC = true ∧ ((inp.dropWhile goesOn).head? = none ∨ (inp.dropWhile goesOn).head? = some none)

/-- A label as it should be: no white space, no upper case. -/
def Proper (isUpper : Nat → Bool) (l : Str) : Prop := ∀ r ∈ runes l, isSpaceRune r = false ∧ isUpper r = false

/-- The labels to add when `typed` is typed for an entry with the labels `before`: the proper ones that are not there yet, each
once and in the order typed. -/
structure Added (isUpper : Nat → Bool) (before typed added : List Str) : Prop where
  order : added.Sublist typed
  once : added.Nodup
  mem : ∀ l, l ∈ added ↔ l ∈ typed ∧ Proper isUpper l ∧ l ∉ before

end Verif.App.Spec
