import Verif.App.SharedSpec
/-!
# The whole life of a file, from its creation through the first user to many
-/
namespace Verif.App.Spec
open Verif Verif.Txlogs Verif.Blob Verif.Crypt Verif.App

/-- What opens a file: one password, or user names with passwords. -/
inductive Keys where
  | own (pass : Str)
  | shared (t : Passwords)

/-- The answers with which the file is opened. -/
def Keys.Opens : Keys → Input → Prop
  | .own pass, inp => inp = [some pass]
  | .shared t, inp => ∃ user pass, t user = some pass ∧ inp = [some user, some pass]

/-- A turn of well-formed text. While the file has no users, the first `adduser` gives a name that is possible, and there is no entry
that looks like a user. Later, user entries are left to the account commands. -/
structure FileTurn (P : Prims) (v : Env) (line : Str) (r : Repl) : Prop where
  turn : CleanTurn v line r
  draw : DrawOk v.d
  first : r.u.creds.master = [] → ∀ nm l, parseLine line = some (b! "adduser", nm :: l) →
    NewOk P r.u.store v.d.uuid nm ∧ ∀ w n, ¬ IsUser r.u.store w n
  later : r.u.creds.master ≠ [] → ∀ cmd args, parseLine line = some (cmd, args) → SharedLine P v r cmd args

/-- What opens the file after a line. The first user gets the password of the file. -/
noncomputable def keysAfter (v : Env) (line : Str) (r : Repl) : Keys → Keys
  | .own pass =>
    match parseLine line with
    | some (cmd, nm :: _) =>
      if cmd = b! "adduser" then .shared (Txlogs.Spec.upd (fun _ => none) nm (some pass)) else .own (passAfter v line pass)
    | _ => .own (passAfter v line pass)
  | .shared t => .shared (tableAfter v line r t)

/-- What opens the file at the end of a session. -/
noncomputable def lastKeys (P : Prims) (C : Codec) : List Turn → Repl → Keys → Keys
  | [], _, k => k
  | (none, _) :: _, _, k => k
  | (some line, v) :: rest, r, k =>
    match runLine P C v line r with
    | (r', .ok false) => lastKeys P C rest r' (keysAfter v line r k)
    | _ => keysAfter v line r k

/-- A file, what opens it and what it holds, after any number of sessions by anybody, each ended normally. -/
inductive FileLife (P : Prims) : Str → Keys → DB → Prop where
  | new {pass salt : Str} {inp : Input} {u : Session} {turns : List Turn} {r : Repl} {ord : Order} {ord' : Results → Results}
      {iv f : Str} :
      salt.length = 32 → createFile P none salt (some pass :: some pass :: inp) = (.ok u, inp) →
      Along P Json.Spec.codec (FileTurn P) turns { u := u } → runRepl P Json.Spec.codec turns { u := u } = (r, .ok ()) →
      Counted r.u.store → (∀ m, (ord m).Perm m) → (∀ m, (ord' m).Perm m) → iv.length = 40 →
      saveBlob P Json.Spec.codec ord ord' iv r.u = .ok (some f) →
      FileLife P f (lastKeys P Json.Spec.codec turns { u := u } (.own pass)) r.u.store
  | next {f : Str} {k : Keys} {s : DB} {inp inp' : Input} {u : Session} {turns : List Turn} {r : Repl} {ord : Order}
      {ord' : Results → Results} {iv f' : Str} :
      FileLife P f k s → k.Opens inp → openFile P Json.Spec.codec none f inp = (.ok u, inp') →
      Along P Json.Spec.codec (FileTurn P) turns { u := u } → runRepl P Json.Spec.codec turns { u := u } = (r, .ok ()) →
      Counted r.u.store → (∀ m, (ord m).Perm m) → (∀ m, (ord' m).Perm m) → iv.length = 40 →
      saveBlob P Json.Spec.codec ord ord' iv r.u = .ok (some f') →
      FileLife P f' (lastKeys P Json.Spec.codec turns { u := u } k) r.u.store

/-- The session is one in a file that `k` opens. -/
def Held (P : Prims) (u : Session) : Keys → Prop
  | .own pass => OwnSession P u pass
  | .shared t => MultiSession P u ∧ Holders P u t

end Verif.App.Spec
