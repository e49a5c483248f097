import Verif.App.FleetSpec
import Verif.App.CrewSpec
/-!
# Machines that sync at the same time

`sync` (sync.go:59-184) reads the remotes, asks the user what has to be asked, and then writes the remotes. Nothing keeps another
machine from writing them in between, and nothing looks whether one did. So what a machine merges is what a shared file held some
time ago. It is the same `sync` as in `Verif.App.Fleet`, with an older file to read.
-/
namespace Verif.App.Spec
open Verif Verif.Txlogs Verif.Txlogs.Spec Verif.Blob Verif.Crypt Verif.App

/-- The machines and the share, and everything the share has ever held (it holds `fleet.share` now). -/
structure Race where
  fleet : Fleet
  past : List Str

inductive RaceEvent where
  | work (i : Nat) (turns : List Turn)
  /-- machine `i` writes, after it has read `f` -/
  | sync (i : Nat) (f : Str) (v : SyncEnv) (inp : Input)

/-- the fleet as a machine sees it that has read `f` -/
def Race.seen (X : Race) (f : Str) : Fleet := { X.fleet with share := f }

def Race.step (P : Prims) (C : Codec) (X : Race) : RaceEvent → Race
  | .work i turns => { X with fleet := X.fleet.step P C (.work i turns) }
  | .sync i f v inp =>
    let x := App.sync P C (shareWorld f) v [] true (X.fleet.machine i) inp
    let share := if x.pushed = [] then X.fleet.share else x.sent
    ⟨{ X.fleet.set i x.session with share := share }, share :: X.past⟩

def Race.run (P : Prims) (C : Codec) : List RaceEvent → Race → Race
  | [], X => X
  | e :: es, X => Race.run P C es (X.step P C e)

/-- What is read is something the share once held; the rest is as for machines that sync one after the other. -/
def RaceEventOk (P : Prims) (C : Codec) (X : Race) : RaceEvent → Prop
  | .work i turns => WorkOk P C X.fleet i turns
  | .sync i f v inp => f ∈ X.past ∧ ShareEnv P C (X.seen f) i v inp

def RaceOk (P : Prims) (C : Codec) : List RaceEvent → Race → Prop
  | [], _ => True
  | e :: es, X => RaceEventOk P C X e ∧ RaceOk P C es (X.step P C e)

/-- A round in which the machines sync one after the other: each reads what the share holds when it writes. -/
def OneByOne (P : Prims) (C : Codec) : List RaceEvent → Race → Prop
  | [], _ => True
  | .work _ _ :: _, _ => False
  | .sync i f v inp :: es, X => f = X.fleet.share ∧ OneByOne P C es (X.step P C (.sync i f v inp))

/-- In the round no machine is in conflict with the share, and none takes the log of the share for its own that is not. -/
def Clear (P : Prims) (C : Codec) : List RaceEvent → Race → Prop
  | [], _ => True
  | .work i turns :: es, X => Clear P C es (X.step P C (.work i turns))
  | .sync i f v inp :: es, X => (¬ ∃ d x, Conflict P C (X.seen f) i d x) ∧
      (∀ R, readShare P C (X.fleet.machine i).creds f = some R → LooksSame R (X.fleet.log i) → R = X.fleet.log i) ∧
      Clear P C es (X.step P C (.sync i f v inp))

/-- The machines that run `sync`. -/
def racers : List RaceEvent → List Nat
  | [] => []
  | .work _ _ :: es => racers es
  | .sync i _ _ _ :: es => i :: racers es

/-- Nobody touches the accounts. -/
def CrewRaceOk (P : Prims) (C : Codec) (base : List Tx) : List RaceEvent → Race → Prop
  | [], _ => True
  | .work i turns :: es, X => CrewEventOk P C base X.fleet (.work i turns) ∧ CrewRaceOk P C base es (X.step P C (.work i turns))
  | .sync i f v inp :: es, X => CrewEventOk P C base X.fleet (.sync i v inp) ∧ CrewRaceOk P C base es (X.step P C (.sync i f v inp))

end Verif.App.Spec
