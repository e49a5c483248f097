import Verif.App.DateSpec
import Verif.App.TransferSpec
/-!
# What the property of files after an import talks about
-/
namespace Verif.App.Spec
open Verif Verif.Txlogs Verif.Txlogs.Spec Verif.Blob Verif.Crypt Verif.App

/-- What an import of `n` records meets: the generator returns new uuids, and the clock runs, shows times an `int64` holds, and is
past everything in the log. Each record reads the clock nine times. -/
structure ImportOk (ds : Nat → Draw) (n : Nat) (s : DB) : Prop where
  fresh : ∀ i < n, ∀ t ∈ s.log, t.uuid ≠ (ds i).uuid
  apart : ∀ i j, i < j → j < n → (ds i).uuid ≠ (ds j).uuid
  uuid_ne : ∀ i < n, (ds i).uuid ≠ []
  text : ∀ i < n, ValidUtf8 (ds i).uuid
  tick : ∀ k < n, ∀ i j, i < j → j < 9 → (ds k).now i < (ds k).now j
  rounds : ∀ k, k + 1 < n → (ds k).now 8 < (ds (k + 1)).now 0
  late : 0 < n → ∀ t ∈ s.log, t.time < (ds 0).now 0
  fits : ∀ k < n, ∀ i < 9, FitsInt64 ((ds k).now i)

end Verif.App.Spec
