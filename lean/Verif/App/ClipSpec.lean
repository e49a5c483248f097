import Verif.App.Clip
import Verif.App.ShowSpec
/-!
# What the properties of the clipboard talk about
-/
namespace Verif.App.Spec
open Verif Verif.Txlogs Verif.Blob Verif.Crypt Verif.App

/-- What may get into the clipboard: a value of an entry other than a two-factor secret, a two-factor code, a date, or a password
just generated (nothing, if none could be). -/
inductive Copyable (date : Str → Str) (v : Env) (s : DB) : Str → Prop where
  | value (uuid : Str) (e : Str → Option Str) (k x : Str) : Blob.Spec.Visible s uuid e → k ≠ keyTwoFactor → k ≠ keyUpdated →
      e k = some x → Copyable date v s x
  | code (uuid : Str) (e : Str → Option Str) (secret x : Str) : Blob.Spec.Visible s uuid e → e keyTwoFactor = some secret →
      v.totp secret = some x → Copyable date v s x
  | date (uuid : Str) (e : Str → Option Str) (ts : Str) (t : Int) : Blob.Spec.Visible s uuid e → e keyUpdated = some ts → atoi ts = some t →
      Copyable date v s (date (fmtInt t))
  | generated (j : Nat) (len : Int) (cl : Classes) (x : Str) : genPassword (v.d.ent j) len cl = .ok x → Copyable date v s x
  | none : Copyable date v s []

/-- The commands that copy. -/
def copying : List Str := [b! "cp", keyUser, keyPass, keyEmail, keyTwoFactor, b! "login", b! "add", b! "set", b! "addsync"]

/-- Answers to the password prompt after which it asks again. -/
def Asks (x : Option Str) : Prop := ∃ s, x = some s ∧ s ≠ b! "y" ∧ s ≠ b! "m"

end Verif.App.Spec
