import Verif.App.Repl
import Verif.App.SessionSpec
/-!
# What the properties of the prompt talk about
-/
namespace Verif.App.Spec
open Verif Verif.Txlogs Verif.Blob Verif.Crypt Verif.App

/-- The string does not end in white space. -/
def NoTrailingSpace (s : Str) : Prop := ∀ p, (pieces s).getLast? = some p → isSpaceRune p.1 = false

instance (s : Str) : Decidable (NoTrailingSpace s) :=
  match h : (pieces s).getLast? with
  | none => .isTrue (fun p hp => by rw [h] at hp; cases hp)
  | some p =>
    if hs : isSpaceRune p.1 = false then .isTrue (fun q hq => by rw [h] at hq; cases hq; exact hs)
    else .isFalse (fun hall => hs (hall p h))

/-- the line `set q k v` -/
def setLine (q k v : Str) : Str := b! "set " ++ q ++ b! " " ++ k ++ b! " " ++ v

/-- Operations are in the order of their times. -/
def Chrono (log : List Tx) : Prop := log.Pairwise (fun a b => a.time ≤ b.time)

/-- The query selects this entry. -/
def Picks (v : Env) (s : DB) (q uuid : Str) : Prop :=
  uuid ≠ [] ∧ ∃ s', findOne v.lower v.ord v.ord' s q = (s', .ok uuid)

end Verif.App.Spec
