import Verif.Txlogs.Merge
import Verif.Txlogs.Spec
/-!
# Vocabulary for the properties of `Merge`

Timestamps are used by bpass as operation ids.
-/
namespace Verif.Txlogs.Spec
open Verif Verif.Txlogs

/-- Chronologically ordered, no two operations with the same timestamp. -/
def Chrono (l : List Tx) : Prop := l.Pairwise (fun x y => x.time < y.time)

/-- Timestamps identify operations across the two logs. -/
def SameIds (a b : List Tx) : Prop := ∀ x ∈ a, ∀ y ∈ b, x.time = y.time → x = y

/-- Equal length and equal first and last timestamps: the logs `Merge` takes for identical. -/
def LooksSame (a b : List Tx) : Prop :=
  a.length = b.length ∧ a.head?.map Tx.time = b.head?.map Tx.time ∧
    a.getLast?.map Tx.time = b.getLast?.map Tx.time

/-- Logs that look identical to `Merge` are identical. -/
def Distinguishable (a b : List Tx) : Prop := LooksSame a b → a = b

/-- The log replays without error. -/
def Replays (l : List Tx) : Prop := (meaning empty l).isSome = true

/-- Only the four kinds of operation bpass writes. -/
def KnownKinds (l : List Tx) : Prop := ∀ t ∈ l, ∀ s, t.kind ≠ .other s

/-- Each entry is added at most once (uuids are never reused). -/
def AddsOnce (l : List Tx) : Prop :=
  ∀ x ∈ l, ∀ y ∈ l, x.kind = .add → y.kind = .add → x.uuid = y.uuid → x = y

/-- A history as bpass writes it. -/
structure GoodHistory (l : List Tx) : Prop where
  chrono : Chrono l
  replays : Replays l
  kinds : KnownKinds l
  addsOnce : AddsOnce l

/-- Two histories of the same file: common operations are identical, and a uuid present on both sides stems
from the same add. -/
structure SameFile (a b : List Tx) : Prop where
  ids : SameIds a b
  adds : ∀ x ∈ a, ∀ y ∈ b, x.kind = .add → y.kind = .add → x.uuid = y.uuid → x = y

/-- The two logs do not start with the same operation. -/
def NoCommonRoot (a b : List Tx) : Prop :=
  ∃ x a' y b', a = x :: a' ∧ b = y :: b' ∧ x.time ≠ y.time

/-- `d` deletes an entry and `x` is a later operation on it that only one side knows. -/
def TouchedAfterDelete (a b : List Tx) (d x : Tx) : Prop :=
  (d ∈ a ∨ d ∈ b) ∧ (x ∈ a ∨ x ∈ b) ∧ d.kind = .del ∧ d.uuid = x.uuid ∧ d.time < x.time ∧
    ¬ (x ∈ a ∧ x ∈ b)

end Verif.Txlogs.Spec
