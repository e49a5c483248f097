import Verif.Txlogs.Spec
import Verif.Blob.Model
/-!
# What the blob properties talk about

A store is described by the meaning of its log (`Txlogs.Spec`), not by its snapshot.
-/
namespace Verif.Blob.Spec
open Verif Verif.Txlogs

/-- Entry `u` is visible in the store and maps keys to values as `e`. -/
def Visible (s : DB) (u : Str) (e : Str → Option Str) : Prop :=
  ∃ st, Spec.meaning Spec.empty s.log = some st ∧ st u = some e

/-- Entry `u` is visible under the name `n`. -/
def Named (s : DB) (u n : Str) : Prop := ∃ e, Visible s u e ∧ e keyName = some n

/-- The file can be read at all. -/
def Readable (s : DB) : Prop := (Spec.meaning Spec.empty s.log).isSome = true

/-- The name `n` is selected by query `q`: everything for the empty query; a fuzzy match of the whole name for a
query without `/`; otherwise the leading `/`-separated fragments of the name match the fragments of the query one
by one. -/
def Selects (lower : Nat → Nat) (q n : Str) : Prop :=
  q = [] ∨
  (q ≠ [] ∧ slash ∉ q ∧ Fuzzy.fuzzyMatch lower n q = some true) ∨
  (slash ∈ q ∧ ∃ ks rest, split slash n = ks ++ rest ∧ ks.length = (split slash q).length ∧
    ∀ p ∈ ks.zip (split slash q), Fuzzy.fuzzyMatch lower p.1 p.2 = some true)

/-- The labels an entry carries. -/
def labelsOf (e : Str → Option Str) : List Str :=
  match e keyLabels with
  | none => []
  | some v => if v = [] then [] else split comma v

/-- ASCII lower case of a byte. -/
def lowerByte (b : UInt8) : UInt8 := if 0x41 ≤ b ∧ b ≤ 0x5A then b + 32 else b

/-- `k` is `p` written with other letter cases. -/
def CaseVariant (k p : Str) : Prop := k.map lowerByte = p.map lowerByte

end Verif.Blob.Spec
