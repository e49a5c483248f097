import Verif.App.HistorySpec
/-!
# What a set of operations says, whatever machines they come from
-/
namespace Verif.App.Spec
open Verif Verif.Txlogs Verif.Blob Verif.Crypt Verif.App

/-- The entry was added somewhere and deleted nowhere. -/
def Lives (ops : Tx → Prop) (w : Str) : Prop :=
  (∃ t, ops t ∧ t.kind = .add ∧ t.uuid = w) ∧ ¬ ∃ t, ops t ∧ t.kind = .del ∧ t.uuid = w

/-- The operation writes or removes the field `k` of the entry `w`. -/
def Writes (w k : Str) (t : Tx) : Prop := (t.kind = .setk ∨ t.kind = .delk) ∧ t.uuid = w ∧ t.key = k

/-- No operation wrote the field later. -/
def LastWrite (ops : Tx → Prop) (w k : Str) (t : Tx) : Prop :=
  ops t ∧ Writes w k t ∧ ∀ t', ops t' → Writes w k t' → t' = t ∨ t'.time < t.time

/-- What a field ought to hold: what was written last, and nothing if it was never written or was removed last. -/
def Says (ops : Tx → Prop) (w k : Str) : Option Str → Prop
  | some x => ∃ t, LastWrite ops w k t ∧ t.kind = .setk ∧ t.value = x
  | none => (∀ t, ops t → ¬ Writes w k t) ∨ ∃ t, LastWrite ops w k t ∧ t.kind = .delk

/-- The operations of this machine and of the remotes that were read. -/
def Anywhere (log : List Tx) (l : List (Str × Fate × Str)) (t : Tx) : Prop := t ∈ log ∨ ∃ q ∈ remotes l, t ∈ q.log

end Verif.App.Spec
