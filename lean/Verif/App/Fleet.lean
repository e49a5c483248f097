import Verif.App.Repl
/-!
# Several machines and a file they share

Every machine has its own file, which holds the session of that machine when nobody works on it (`Verif.App.Session` is about how
it gets there). All of them have one sync entry for the same file; what `sync` reads and writes there is `share`. Nothing here is
code of bpass apart from `runRepl` and `sync`.
-/
namespace Verif.App
open Verif Verif.Txlogs Verif.Blob Verif.Crypt

structure Fleet where
  machine : Nat → Session
  share : Str

/-- What happens: on machine `i` someone works at the prompt, or runs `sync`, answering its questions with `inp`. -/
inductive Event where
  | work (i : Nat) (turns : List Turn)
  | sync (i : Nat) (v : SyncEnv) (inp : Input)

/-- a world in which every remote is the same file with contents `f`, which can be written -/
def shareWorld (f : Str) : World where
  scheme _ := some syncFile
  sshPull _ _ inp := (none, inp)
  readFile _ _ := .bytes f
  sshPush _ _ _ inp := (none, inp)
  writeFile _ _ _ := true

def Fleet.set (F : Fleet) (i : Nat) (u : Session) : Fleet := { F with machine := fun j => if j = i then u else F.machine j }

def Fleet.step (P : Prims) (C : Codec) (F : Fleet) : Event → Fleet
  | .work i turns => F.set i (runRepl P C turns { u := F.machine i }).1.u
  | .sync i v inp =>
    let x := App.sync P C (shareWorld F.share) v [] true (F.machine i) inp
    { F.set i x.session with share := if x.pushed = [] then F.share else x.sent }

def Fleet.run (P : Prims) (C : Codec) : List Event → Fleet → Fleet
  | [], F => F
  | e :: es, F => Fleet.run P C es (F.step P C e)

/-- the log of machine `i` -/
def Fleet.log (F : Fleet) (i : Nat) : List Tx := (F.machine i).store.log

/-- the log in a file that is opened with the credentials `c`, as `pullOne` reads it -/
def readShare (P : Prims) (C : Codec) (c : Creds) (f : Str) : Option (List Tx) :=
  match decrypt P c.user c.pass (orNil c.key) c.salt f with
  | .ok (_, _, pt) =>
    if pt = [] then none
    else
      match C.loadLog pt with
      | .ok l => some l
      | _ => none
  | _ => none

end Verif.App
