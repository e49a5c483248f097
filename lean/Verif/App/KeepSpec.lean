import Verif.App.SyncSpec
import Verif.Txlogs.MergeSpec
/-!
# What the properties of what `sync` keeps talk about
-/
namespace Verif.App.Spec
open Verif Verif.Txlogs Verif.Txlogs.Spec Verif.Blob Verif.Crypt Verif.App

/-- `log` and the logs `rs` are histories of one file. -/
structure OneFile (log : List Tx) (rs : List (List Tx)) : Prop where
  good : GoodHistory log
  remotes : ∀ r ∈ rs, GoodHistory r ∧ SameFile log r
  pairs : ∀ r ∈ rs, ∀ r' ∈ rs, SameFile r r'

/-- No log is taken for the union of those before it though it differs (equal length, first and last time stamp). -/
def Told (log : List Tx) (rs : List (List Tx)) : Prop :=
  ∀ pre r post c, rs = pre ++ r :: post → Chrono c → (∀ t, t ∈ c ↔ t ∈ log ∨ ∃ x ∈ pre, t ∈ x) → Distinguishable c r

/-- The file of the remote `uuid` was fetched, decrypted and read: its log is `log`. -/
def Fetched (P : Prims) (C : Codec) (w : World) (u : Session) (uuid : Str) (inp : Input) (log : List Tx) : Prop :=
  ∃ ct h i1 x i2, pullBlob w uuid ((u.store.snapshot.get? uuid).getD []) inp = (some (.bytes ct, h), i1) ∧
    decryptBlob P u.creds ct u.creds.user u.creds.pass i1 = (.ok (some x), i2) ∧ x.2.2.2 ≠ [] ∧ C.loadLog x.2.2.2 = .ok log

end Verif.App.Spec
