import Verif.App.FleetSpec
import Verif.App.AccessSpec
/-!
# Several machines whose files are written as JSON

The properties of several machines suppose that the codec returns what it was given. Here the codec is the one of bpass, and what
is supposed is that everything typed is well-formed text.
-/
namespace Verif.App.Spec
open Verif Verif.Txlogs Verif.Txlogs.Spec Verif.Blob Verif.Crypt Verif.App

/-- Events that may happen when files are written as JSON: everything typed is well-formed text, times fit an `int64`, and no log
gets longer than a 64 bit number counts. With `quiet`, no machine syncs while there is a conflict. -/
def TextEventOk (P : Prims) (quiet : Bool) (F : Fleet) : Event → Prop
  | .work i turns => WorkOk P Json.Spec.codec F i turns ∧ Along P Json.Spec.codec TextTurn turns { u := F.machine i } ∧
      ∀ t ∈ (runRepl P Json.Spec.codec turns { u := F.machine i }).1.u.store.log, FitsInt64 t.time
  | .sync i v inp => v.iv.length = 40 ∧ (∀ m, (v.ordH m).Perm m) ∧
      (∃ x, x ≠ [] ∧ collectSyncs (shareWorld F.share) v.ord (F.machine i).store.updateSnapshot.1 = [x]) ∧
      Counted (App.sync P Json.Spec.codec (shareWorld F.share) v [] true (F.machine i) inp).session.store ∧
      (quiet = true → ¬ ∃ d x, Conflict P Json.Spec.codec F i d x)

def TextRunOk (P : Prims) (quiet : Bool) : List Event → Fleet → Prop
  | [], _ => True
  | e :: es, F => TextEventOk P quiet F e ∧ TextRunOk P quiet es (F.step P Json.Spec.codec e)

end Verif.App.Spec
