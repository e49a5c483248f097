import Verif.Json.Model
import Verif.App.SessionSpec
/-!
# What the property of the text form talks about
-/
namespace Verif.Json.Spec
open Verif Verif.Txlogs Verif.Json

/-- `json.Marshal`, `New` and `NewLog` as the codec the session model takes as a parameter. -/
def codec : App.Codec := ⟨marshal, load, loadLog⟩

/-- An operation after its ill-formed bytes have been replaced. -/
def cleaned (t : Tx) : Tx :=
  { time := t.time, kind := kindOf (sanitize (kindStr t.kind)), uuid := sanitize t.uuid, key := sanitize t.key,
    value := sanitize t.value }

/-- The numbers fit their Go types (`uint` of 64 bits and `int64`). -/
structure InRange (s : DB) : Prop where
  version : s.version < 18446744073709551616
  time : ∀ t ∈ s.log, -9223372036854775808 ≤ t.time ∧ t.time ≤ 9223372036854775807

/-- A kind as Go has it: `other` is used only for strings that are none of the four constants. -/
def KindOk (k : TxKind) : Prop := kindOf (kindStr k) = k

/-- The strings of an operation are well-formed. -/
structure CleanTx (t : Tx) : Prop where
  kindOk : KindOk t.kind
  kind : ValidUtf8 (kindStr t.kind)
  uuid : ValidUtf8 t.uuid
  key : ValidUtf8 t.key
  value : ValidUtf8 t.value

/-- A map with well-formed keys, none of them twice. -/
structure CleanMap {ν : Type} (m : GoMap Str ν) : Prop where
  nodup : m.NodupKeys
  keys : ∀ p ∈ m, ValidUtf8 p.1

/-- All strings of a store are well-formed and it is not inside a transaction. -/
structure Clean (s : DB) : Prop extends InRange s where
  log : ∀ t ∈ s.log, CleanTx t
  snapshot : CleanMap s.snapshot
  entries : ∀ p ∈ s.snapshot, CleanMap p.2 ∧ ∀ q ∈ p.2, ValidUtf8 q.2

end Verif.Json.Spec
