import Verif.App.Fleet
import Verif.App.HistorySpec
/-!
# What the properties of several machines talk about
-/
namespace Verif.App.Spec
open Verif Verif.Txlogs Verif.Txlogs.Spec Verif.Blob Verif.Crypt Verif.App

/-- Two operations made independently: at different times, not for the same new entry, and not giving one name to two entries. -/
structure Foreign (t x : Tx) : Prop where
  time : t.time ≠ x.time
  add : ¬ (t.kind = .add ∧ x.kind = .add ∧ t.uuid = x.uuid)
  name : t.kind = .setk → x.kind = .setk → t.key = keyName → x.key = keyName → t.value = x.value → t.uuid = x.uuid

/-- Someone works on machine `i`: the session ends normally and leaves the password alone, and what it records was made by nobody
else (clocks and random uuids are different everywhere, and no name is used for two entries). -/
structure WorkOk (P : Prims) (C : Codec) (F : Fleet) (i : Nat) (turns : List Turn) : Prop where
  legal : Along P C HistoryTurn turns { u := F.machine i }
  ends : (runRepl P C turns { u := F.machine i }).2 = .ok ()
  creds : (runRepl P C turns { u := F.machine i }).1.u.creds = (F.machine i).creds
  names : NamesApart (runRepl P C turns { u := F.machine i }).1.u.store.log
  fresh : ∀ t ∈ (runRepl P C turns { u := F.machine i }).1.u.store.log, t ∈ F.log i ∨ ∀ j, ∀ x ∈ F.log j, Foreign t x

/-- Machine `i` runs `sync`: it has one sync entry, and what it ends up with can be written as JSON. -/
structure ShareEnv (P : Prims) (C : Codec) (F : Fleet) (i : Nat) (v : SyncEnv) (inp : Input) : Prop where
  iv : v.iv.length = 40
  ordH : ∀ m, (v.ordH m).Perm m
  one : ∃ x, x ≠ [] ∧ collectSyncs (shareWorld F.share) v.ord (F.machine i).store.updateSnapshot.1 = [x]
  codec : Faithful C (App.sync P C (shareWorld F.share) v [] true (F.machine i) inp).session.store

/-- Machine `i` and the share disagree about an entry that one deleted and the other changed later. -/
def Conflict (P : Prims) (C : Codec) (F : Fleet) (i : Nat) (d x : Tx) : Prop :=
  ∃ R, readShare P C (F.machine i).creds F.share = some R ∧ TouchedAfterDelete (F.log i) R d x

/-- Events that may happen; with `quiet`, no machine syncs while there is a conflict. -/
def EventOk (P : Prims) (C : Codec) (quiet : Bool) (F : Fleet) : Event → Prop
  | .work i turns => WorkOk P C F i turns
  | .sync i v inp => ShareEnv P C F i v inp ∧ (quiet = true → ¬ ∃ d x, Conflict P C F i d x)

def RunOk (P : Prims) (C : Codec) (quiet : Bool) : List Event → Fleet → Prop
  | [], _ => True
  | e :: es, F => EventOk P C quiet F e ∧ RunOk P C quiet es (F.step P C e)

/-- The file `f` is the log `R`, saved with the credentials `c`. -/
def SavedAs (P : Prims) (C : Codec) (c : Creds) (f : Str) (R : List Tx) : Prop :=
  ∃ ord ord' iv s, iv.length = 40 ∧ s.txPoint = 0 ∧ s.log = R ∧ Faithful C s ∧
    saveBlob P C ord ord' iv { creds := c, store := s } = .ok (some f)

/-- All machines and the share are copies of one file without users. -/
structure Copies (P : Prims) (C : Codec) (c : Creds) (F : Fleet) (base : List Tx) : Prop where
  single : SingleCreds c
  creds : ∀ i, (F.machine i).creds = c
  sound : ∀ i, Sound (F.machine i).store
  logs : ∀ i, F.log i = base
  nonempty : base ≠ []
  names : NamesApart base
  share : SavedAs P C c F.share base

/-- The machines that run `sync`. -/
def syncers : List Event → List Nat
  | [] => []
  | .work _ _ :: es => syncers es
  | .sync i _ _ :: es => i :: syncers es

/-- Nobody works at a prompt. -/
def OnlySyncs (es : List Event) : Prop := ∀ i turns, Event.work i turns ∉ es

end Verif.App.Spec
