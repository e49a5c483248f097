import Verif.App.HistorySpec
import Verif.App.AccessSpec
/-!
# What the property of the dates of entries talks about
-/
namespace Verif.App.Spec
open Verif Verif.Txlogs Verif.Txlogs.Spec Verif.Blob Verif.Crypt Verif.App

/-- A history in which every entry is given a date, no date is taken away, and every date is a number that an `int64` holds and lies
before the time it was written at. -/
structure DatedHistory (l : List Tx) : Prop where
  given : ∀ x ∈ l, x.kind = .add → ∃ y ∈ l, y.kind = .setk ∧ y.uuid = x.uuid ∧ y.key = keyUpdated
  kept : ∀ x ∈ l, x.kind = .delk → x.key ≠ keyUpdated
  date : ∀ x ∈ l, x.kind = .setk → x.key = keyUpdated → ∃ n, FitsInt64 n ∧ n < x.time ∧ x.value = fmtInt n

/-- The readings of the clock of a turn that can get into a date are numbers an `int64` holds. -/
def ClockFits (v : Env) : Prop := ∀ j, j < 12 → FitsInt64 (v.d.now j)

/-- The files `sync` merges have dates. -/
def PulledDated (P : Prims) (C : Codec) (w : World) (v : SyncEnv) (nm : Str) (u : Session) (inp : Input) : Prop :=
  ∀ syncs l rest, Selected w v u nm syncs →
    pullAll P C w { u with store := u.store.updateSnapshot.1 } syncs inp = (some l, rest) → ∀ q ∈ remotes l, DatedHistory q.log

/-- A turn, `sync` included, in which the clock shows times an `int64` holds and other machines have dated files. -/
structure DatedTurn (P : Prims) (C : Codec) (v : Env) (line : Str) (r : Repl) : Prop where
  whole : WholeTurn P C v line r
  fits : ClockFits v
  pulled : ∀ args, parseLine line = some (b! "sync", args) → PulledDated P C v.w v.v (args.head?.getD []) r.u v.d.inp

/-- The entry was `e` and is `e'`, and its date does not tell: every key is as before but for the three keys of the record of a user
and for the labels, which may all be gone. -/
structure NotTold (e e' : Str → Option Str) : Prop where
  date : e' keyUpdated = e keyUpdated
  keys : ∀ k, k ∉ [keySalt, keyIV, keyMKey, keyLabels] → e' k = e k
  labels : e' keyLabels = e keyLabels ∨ e' keyLabels = none

end Verif.App.Spec
