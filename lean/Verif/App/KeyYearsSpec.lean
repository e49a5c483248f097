import Verif.App.LockoutSpec
import Verif.App.SyncTextSpec
/-!
# The life of a file with users, `sync` included
-/
namespace Verif.App.Spec
open Verif Verif.Txlogs Verif.Blob Verif.Crypt Verif.App

/-- An automatic `sync` meets what is possible: see `AutoOk`, `KeyWholeTurn` and `TextWholeTurn`. -/
structure AutoKeyed (P : Prims) (v : Env) (u : Session) : Prop where
  ok : AutoOk P Json.Spec.codec v u
  shared : ∀ rs, Keyed P u rs → SharedSync P Json.Spec.codec v.w v.v [] u v.d.inp rs
  text : TextWorld v.w
  choices : SyncChoices (fun _ => True) v.v

/-- What a session must be to be written: some user is left, their names can be told apart by their hashes, and the clock and the length
of the history fit the numbers of the format. -/
structure Writable (P : Prims) (s : DB) : Prop where
  times : ∀ t ∈ s.log, FitsInt64 t.time
  counted : Counted s
  roomy : Roomy P s.log
  users : ∃ uuid user, IsUser s uuid user

/-- One run of the program on a file with users, from the opened file `u`: everything that is typed is well-formed text and leaves the
records of the users to `passwd`, `rekey` and `adduser`, and every `sync`, automatic or not, meets files with the same master key in
which no password of the same user was set at the same time. -/
structure KeyRun (P : Prims) (auto : Bool) (v v' : Env) (iv : Str) (turns : List Turn) (u : Session) : Prop where
  ord : ∀ m, (v'.ord m).Perm m
  ord' : ∀ m, (v'.ord' m).Perm m
  start : auto = true → AutoKeyed P v u
  lines : Along P Json.Spec.codec (fun v line r => KeyWholeTurn P Json.Spec.codec v line r ∧ TextWholeTurn v line r)
    turns (autoSync P Json.Spec.codec v auto { u := u }).1
  stop : auto = true → AutoKeyed P v' (runRepl P Json.Spec.codec turns (autoSync P Json.Spec.codec v auto { u := u }).1).1.u
  writable : Writable P (session P Json.Spec.codec auto v v' iv turns u).1.u.store

/-- The record came up in a run. -/
def CameInRun (P : Prims) (auto : Bool) (v v' : Env) (turns : List Turn) (u : Session) (x : Rec) : Prop :=
  auto = true ∧ CameInSync P Json.Spec.codec v.w v.v [] u v.d.inp x ∨
  CameIn P Json.Spec.codec turns (autoSync P Json.Spec.codec v auto { u := u }).1 x ∨
  auto = true ∧ CameInSync P Json.Spec.codec v'.w v'.v []
    (runRepl P Json.Spec.codec turns (autoSync P Json.Spec.codec v auto { u := u }).1).1.u v'.d.inp x

/-- A file with users, the records of the passwords that were ever set and what it holds, after any number of runs of the program with
`sync`s, each ended normally. In each run the file was opened by one of the users, with the password set last for them. -/
inductive KeyYears (P : Prims) : Str → List Rec → DB → Prop where
  | saved {ord : Order} {ord' : Results → Results} {iv f : Str} {u : Session} {rs : List Rec} :
      (∀ m, (ord m).Perm m) → (∀ m, (ord' m).Perm m) → Keyed P u rs → (∀ t ∈ u.store.log, Json.Spec.CleanTx t) → Writable P u.store →
      saveBlob P Json.Spec.codec ord ord' iv u = .ok (some f) → KeyYears P f rs u.store
  | next {f user uuid iv f' : Str} {rs rs' : List Rec} {s : DB} {x : Rec} {u : Session} {auto : Bool} {v v' : Env} {turns : List Turn}
      {r : Repl} :
      KeyYears P f rs s → IsUser s uuid user → Newest rs x → x.uuid = uuid →
      openFile P Json.Spec.codec none f [some user, some x.pass] = (.ok u, []) → KeyRun P auto v v' iv turns u →
      session P Json.Spec.codec auto v v' iv turns u = (r, .ok (some f')) →
      Keyed P r.u rs' → (∀ y ∈ rs, y ∈ rs') → KeyYears P f' rs' r.u.store

end Verif.App.Spec
