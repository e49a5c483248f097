import Verif.App.FleetSpec
/-!
# How the files of several machines are locked

The lemmas about several machines are the same for files without users and for files with users. What they need to know about the
passwords is here.
-/
namespace Verif.App
open Verif Verif.Txlogs Verif.Blob Verif.Crypt Verif.App.Spec

/-- what the machines have, and why each of them can read what any of them saves -/
structure Scheme (P : Prims) (C : Codec) where
  /-- the credentials of the machines -/
  creds : Nat → Creds
  /-- logs that hold the accounts -/
  log : List Tx → Prop
  /-- choices under which a file can be saved -/
  env : SyncEnv → Prop
  /-- files that hold a log -/
  saved : Str → List Tx → Prop
  union : ∀ {a b c}, log a → log b → (∀ t, t ∈ c ↔ t ∈ a ∨ t ∈ b) → log c
  opens : ∀ {f R} (i : Nat), OwnHistory R → log R → saved f R → ∃ q pt key salt,
    decrypt P (creds i).user (creds i).pass (orNil (creds i).key) (creds i).salt f = .ok (1, q, pt) ∧ pt ≠ [] ∧ C.loadLog pt = .ok R ∧
      userSlot q.keys q.user = some key ∧ userSlot q.salts q.user = some salt ∧ q.master.getD [] = (creds i).master ∧
      ((creds i).master = [] → key = (creds i).key)
  seals : ∀ {s : DB} {v : SyncEnv} (i : Nat), Sound s → log s.log → env v → v.iv.length = 40 → Faithful C s →
    s.updateSnapshot = (s, none) → ∃ ct, sealFile P C v.ord v.ord' v.iv (creds i) s = (s, .ok ct) ∧ saved ct s.log

/-- an event after which the accounts are as before, and files can be saved -/
def Scheme.event {P : Prims} {C : Codec} (K : Scheme P C) (F : Fleet) : Event → Prop
  | .work i turns => K.log (F.log i) → F.log i <+: (runRepl P C turns { u := F.machine i }).1.u.store.log →
      K.log (runRepl P C turns { u := F.machine i }).1.u.store.log
  | .sync _ v _ => K.env v

def Scheme.run {P : Prims} {C : Codec} (K : Scheme P C) : List Event → Fleet → Prop
  | [], _ => True
  | e :: es, F => K.event F e ∧ K.run es (F.step P C e)

end Verif.App
