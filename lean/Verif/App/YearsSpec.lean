import Verif.App.OwnSyncSpec
import Verif.App.SyncTextSpec
/-!
# The life of a file without users, `sync` included
-/
namespace Verif.App.Spec
open Verif Verif.Txlogs Verif.Blob Verif.Crypt Verif.App

/-- An automatic `sync` meets what is possible: see `AutoOk`, `OwnSyncTurn` and `TextWholeTurn`. -/
structure AutoFine (P : Prims) (v : Env) (u : Session) : Prop where
  ok : AutoOk P Json.Spec.codec v u
  listens : Listens v.w
  noUsers : NoUsersThere v.w v.v [] u
  text : TextWorld v.w
  choices : SyncChoices (fun _ => True) v.v

/-- One run of the program on a file without users, from the opened file `u`: everything that is typed is well-formed text, nobody
types `adduser`, and every `sync`, automatic or not, meets files without users that are copies of this one; at the end the clock and the
length of the history fit the numbers of the format. -/
structure Run (P : Prims) (auto : Bool) (v v' : Env) (iv : Str) (turns : List Turn) (u : Session) : Prop where
  nonce : iv.length = 40
  start : auto = true → AutoFine P v u
  lines : Along P Json.Spec.codec (fun v line r => WholeTurn P Json.Spec.codec v line r ∧ OwnSyncTurn v line r ∧ TextWholeTurn v line r)
    turns (autoSync P Json.Spec.codec v auto { u := u }).1
  stop : auto = true → AutoFine P v' (runRepl P Json.Spec.codec turns (autoSync P Json.Spec.codec v auto { u := u }).1).1.u
  times : ∀ t ∈ (session P Json.Spec.codec auto v v' iv turns u).1.u.store.log, FitsInt64 t.time
  counted : Counted (session P Json.Spec.codec auto v v' iv turns u).1.u.store

/-- Why `q` can be the passphrase after a run when it was `p` before. -/
def Passed (auto : Bool) (v v' : Env) (turns : List Turn) (p q : Str) : Prop :=
  ∃ p1 p2, (p1 = p ∨ auto = true ∧ some p1 ∈ v.d.inp) ∧ PassSteps turns p1 p2 ∧ (q = p2 ∨ auto = true ∧ some q ∈ v'.d.inp)

/-- A file without users, a passphrase of it and what it holds, after any number of runs of the program with `sync`s, each ended
normally. -/
inductive Years (P : Prims) : Str → Str → DB → Prop where
  | new {pass salt q iv f : Str} {inp : Input} {u : Session} {auto : Bool} {v v' : Env} {turns : List Turn} {r : Repl} :
      salt.length = 32 → createFile P none salt (some pass :: some pass :: inp) = (.ok u, inp) → Run P auto v v' iv turns u →
      session P Json.Spec.codec auto v v' iv turns u = (r, .ok (some f)) →
      Passed auto v v' turns pass q → q ≠ [] → r.u.creds.key = P.kdf q r.u.creds.salt → Years P f q r.u.store
  | next {f pass q iv f' : Str} {s : DB} {u : Session} {auto : Bool} {v v' : Env} {turns : List Turn} {r : Repl} :
      Years P f pass s → openFile P Json.Spec.codec none f [some pass] = (.ok u, []) → Run P auto v v' iv turns u →
      session P Json.Spec.codec auto v v' iv turns u = (r, .ok (some f')) →
      Passed auto v v' turns pass q → q ≠ [] → r.u.creds.key = P.kdf q r.u.creds.salt → Years P f' q r.u.store

end Verif.App.Spec
