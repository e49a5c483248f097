import Verif.App.Random
/-!
# What C122 is about
-/
namespace Verif.App
open Verif Verif.Txlogs Verif.Blob Verif.Crypt

/-- The answers, with `f` in the place of those that were not given. -/
def Spec.drawnAs (x : Rolls) (f : Draw) : Draw where
  now := x.now
  uuid := x.uuid.getD f.uuid
  salt := x.salt.getD f.salt
  iv := x.iv.getD f.iv
  master := x.master.getD f.master
  ivm := x.ivm.getD f.ivm
  ent i := (x.ent i).getD (f.ent i)
  inp := x.inp

/-- The surroundings of the ordinary model, with `f` and `fs` in the place of the answers that were not given. -/
def Spec.filledEnv (v : Env) (x : Rolls) (xs : Nat → Rolls) (f : Draw) (fs : Nat → Draw) : Env :=
  { v with d := Spec.drawnAs x f, ds := fun i => Spec.drawnAs (xs i) (fs i) }

/-- A turn of the ordinary model -/
def Spec.filledTurn (t : TurnR) (f : Draw × (Nat → Draw)) : Turn := (t.line, Spec.filledEnv t.v t.x t.xs f.1 f.2)

/-- The turns of the ordinary model; the `i`-th turn uses the `i`-th of `g`. -/
def Spec.filledTurns : List TurnR → (Nat → Draw × (Nat → Draw)) → List Turn
  | [], _ => []
  | t :: rest, g => Spec.filledTurn t (g 0) :: Spec.filledTurns rest fun i => g (i + 1)

/-- The line does not add a user, or a master key can be made. -/
def Spec.MasterMade (line : Option Str) (x : Rolls) : Prop :=
  ∀ l args, line = some l → parseLine l = some (b! "adduser", args) → x.master ≠ none ∧ x.ivm ≠ none

end Verif.App
