import Verif.App.SoundSpec
import Verif.App.HistorySpec
/-!
# What the property about naming entries on a command line talks about
-/
namespace Verif.App.Spec
open Verif Verif.Txlogs Verif.Blob Verif.Crypt Verif.App

/-- A name that can be typed as one argument of a command. -/
def Word (n : Str) : Prop := n ≠ [] ∧ NoSpace n

instance (n : Str) : Decidable (Word n) := by unfold Word; infer_instance

/-- Every name that was ever given in the log is one. -/
def Words (log : List Tx) : Prop := ∀ t ∈ log, t.kind = .setk → t.key = keyName → Word t.value

/-- Whatever a `sync` of the session pulls, only such names were given there. -/
def PulledWords (P : Prims) (C : Codec) (w : World) (v : SyncEnv) (nm : Str) (u : Session) (inp : Input) : Prop :=
  ∀ syncs l rest, Selected w v u nm syncs →
    pullAll P C w { u with store := u.store.updateSnapshot.1 } syncs inp = (some l, rest) → ∀ q ∈ remotes l, Words q.log

/-- A turn that, if it is a `sync`, pulls only such names. -/
def WordTurn (P : Prims) (C : Codec) (v : Env) (line : Str) (r : Repl) : Prop :=
  WholeTurn P C v line r ∧ ∀ args, parseLine line = some (b! "sync", args) →
    PulledWords P C v.w v.v (args.head?.getD []) r.u v.d.inp

end Verif.App.Spec
