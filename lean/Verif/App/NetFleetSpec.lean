import Verif.App.NetSpec
import Verif.App.FleetSpec
/-!
# Several machines that sync with a server

The machines of `Verif.App.Fleet`, but the file that they share is on a server that they reach with ssh, under the address `address`.
The server has OpenSSH's scp. Nothing here is code of bpass apart from `runRepl`, `sync` and what these use.
-/
namespace Verif.App.Spec
open Verif Verif.Txlogs Verif.Txlogs.Spec Verif.Blob Verif.Crypt Verif.App

/-- the server with these files -/
def serve (s : Server) (files : Str → Option Str) : Server := { s with run := scpServer files true }

/-- the world with this server at this address -/
def reach (o : Outside) (address : Str) (s : Server) (files : Str → Option Str) : Outside :=
  { o with net := fun a => if a = address then some (serve s files) else o.net a }

/-- what scp on the other side stores when `ct` is pushed to the remote with the entry `e` -/
def stored (o : Outside) (e : Entry) (ct : Str) : List (Str × Str) :=
  (sshPush o e ct []).sent.filterMap fun x => match x with | .run _ cmd stdin => scpStores cmd stdin | _ => none

/-- the files after storing these -/
def store (files : Str → Option Str) : List (Str × Str) → Str → Option Str
  | [] => files
  | (path, ct) :: l => store (upd files path (some ct)) l

structure NetFleet where
  machine : Nat → Session
  files : Str → Option Str

def NetFleet.step (P : Prims) (C : Codec) (o : Outside) (address : Str) (s : Server) (N : NetFleet) : Event → NetFleet
  | .work i turns =>
    { N with machine := fun j => if j = i then (runRepl P C turns { u := N.machine i }).1.u else N.machine j }
  | .sync i v inp =>
    let x := App.sync P C (netWorld (reach o address s N.files)) v [] true (N.machine i) inp
    { machine := fun j => if j = i then x.session else N.machine j
      files := store N.files (x.pushed.flatMap fun p =>
        stored (reach o address s N.files) ((x.session.store.snapshot.get? p.1).getD []) x.sent) }

def NetFleet.run (P : Prims) (C : Codec) (o : Outside) (address : Str) (s : Server) : List Event → NetFleet → NetFleet
  | [], N => N
  | e :: es, N => NetFleet.run P C o address s es (N.step P C o address s e)

/-- The entry leads to the file `path` on the server at `address`: the server lets the user in, and its key is on record. -/
def Linked (o : Outside) (address : Str) (s : Server) (path : Str) (e : Entry) : Prop :=
  (Url.parse (val e keyURL)).map (·.scheme) = some syncSCP ∧
  ∃ c, sshConfig o.parseKey e = .ok c ∧ c.address = address ∧ c.path = path ∧ s.login c.user c.auth = true ∧
    OnRecord o.sha (val e keyKnownHosts) address s

/-- On the machine that syncs, the sync entry leads to the file on the server, before and after the sync, and no file is larger
than scp can say. -/
def EventLinked (P : Prims) (C : Codec) (o : Outside) (address : Str) (s : Server) (path : Str) (F : Fleet) : Event → Prop
  | .work _ _ => True
  | .sync i v inp =>
    (∀ m, (v.ordH m).Perm m) ∧ F.share.length ≤ 2147483647 ∧
    let r := App.sync P C (shareWorld F.share) v [] true (F.machine i) inp
    r.sent.length ≤ 2147483647 ∧
    ∃ x, collectSyncs (shareWorld F.share) v.ord (F.machine i).store.updateSnapshot.1 = [x] ∧
      collectSyncs (netWorld o) v.ord (F.machine i).store.updateSnapshot.1 = [x] ∧
      Linked o address s path (((F.machine i).store.updateSnapshot.1.snapshot.get? x).getD []) ∧
      Linked o address s path ((r.session.store.snapshot.get? x).getD [])

def RunLinked (P : Prims) (C : Codec) (o : Outside) (address : Str) (s : Server) (path : Str) : List Event → Fleet → Prop
  | [], _ => True
  | e :: es, F => EventLinked P C o address s path F e ∧ RunLinked P C o address s path es (F.step P C e)

/-- The same machines, and the file on the server is the one that they share. -/
structure Mirrors (path : Str) (N : NetFleet) (F : Fleet) : Prop where
  machine : N.machine = F.machine
  file : N.files path = some F.share

end Verif.App.Spec
