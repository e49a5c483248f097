import Verif.App.AccessSpec
/-!
# What the properties of sessions in files with users talk about
-/
namespace Verif.App.Spec
open Verif Verif.Txlogs Verif.Blob Verif.Crypt Verif.App

/-- A line that leaves the user entries to the account commands: nothing is added, renamed or deleted under "user/", no key of a user
record is removed, `rekeyall` is not used, and a new user has a name and a password that are possible. -/
structure SharedLine (P : Prims) (v : Env) (r : Repl) (cmd : Str) (args : List Str) : Prop where
  add : cmd = b! "add" → ∀ nm l, args = nm :: l → hasPrefix nm userPrefix = false
  mv : cmd = b! "mv" → ∀ src dst l, args = src :: dst :: l → hasPrefix src userPrefix = false ∧ hasPrefix dst userPrefix = false
  rm : cmd = b! "rm" → ∀ nm l, args = nm :: l →
    hasPrefix nm userPrefix = false ∧ (splitUsername nm = [] ∨ splitUsername nm ≠ r.u.creds.user)
  cut : cmd = b! "rmk" ∨ cmd = b! "edit" → ∀ q k l, queryArgs r.ctx args = some (q, k, l) → k ∉ [keySalt, keyIV, keyMKey]
  noRekeyAll : cmd ≠ b! "rekeyall"
  adduser : cmd = b! "adduser" → ∀ nm l, args = nm :: l →
    (∃ w, IsUser r.u.store w nm) ∨ (NewOk P r.u.store v.d.uuid nm ∧ getPassword v.d.ent v.d.inp ≠ .ok [])

/-- A turn of well-formed text with such a line; what is drawn at random has the right size. -/
structure SharedTurn (P : Prims) (v : Env) (line : Str) (r : Repl) : Prop where
  turn : CleanTurn v line r
  draw : DrawOk v.d
  line : ∀ cmd args, parseLine line = some (cmd, args) → SharedLine P v r cmd args

/-- the password obtained from the prompt, if any -/
def typedPass (v : Env) : Option Str :=
  match getPassword v.d.ent v.d.inp with
  | .ok p => if p = [] then none else some p
  | _ => none

open Classical in
/-- Who can open the file with what after a line. -/
noncomputable def tableAfter (v : Env) (line : Str) (r : Repl) (t : Passwords) : Passwords :=
  match parseLine line with
  | none => t
  | some (cmd, args) =>
    if cmd = b! "passwd" then
      match typedPass v with
      | some p => Txlogs.Spec.upd t r.u.creds.user (some p)
      | none => t
    else if cmd = b! "adduser" then
      match args, typedPass v with
      | nm :: _, some p => if ∃ w, IsUser r.u.store w nm then t else Txlogs.Spec.upd t nm (some p)
      | _, _ => t
    else if cmd = b! "rekey" then
      if args.head?.getD [] = [] then
        if r.u.creds.pass = [] then t else Txlogs.Spec.upd t r.u.creds.user (some r.u.creds.pass)
      else
        match typedPass v with
        | some p => Txlogs.Spec.upd t (args.head?.getD []) (some p)
        | none => t
    else t

/-- Who can open the file with what at the end of a session. -/
noncomputable def lastTable (P : Prims) (C : Codec) : List Turn → Repl → Passwords → Passwords
  | [], _, t => t
  | (none, _) :: _, _, t => t
  | (some line, v) :: rest, r, t =>
    match runLine P C v line r with
    | (r', .ok false) => lastTable P C rest r' (tableAfter v line r t)
    | _ => tableAfter v line r t

/-- A file with users, the table of passwords and what the file holds, after any number of such sessions, each by somebody in the
table, ended normally. The first session is one in which users exist already. -/
inductive SharedLife (P : Prims) : Str → Passwords → DB → Prop where
  | first {u : Session} {t : Passwords} {turns : List Turn} {r : Repl} {ord : Order} {ord' : Results → Results} {iv f : Str} :
      MultiSession P u → Holders P u t → WellFormed u.store → CleanLog u.store →
      Along P Json.Spec.codec (SharedTurn P) turns { u := u } → runRepl P Json.Spec.codec turns { u := u } = (r, .ok ()) →
      Counted r.u.store → (∀ m, (ord m).Perm m) → (∀ m, (ord' m).Perm m) →
      saveBlob P Json.Spec.codec ord ord' iv r.u = .ok (some f) →
      SharedLife P f (lastTable P Json.Spec.codec turns { u := u } t) r.u.store
  | next {f user pass : Str} {t : Passwords} {s : DB} {inp : Input} {u : Session} {turns : List Turn} {r : Repl} {ord : Order}
      {ord' : Results → Results} {iv f' : Str} :
      SharedLife P f t s → t user = some pass →
      openFile P Json.Spec.codec none f [some user, some pass] = (.ok u, inp) →
      Along P Json.Spec.codec (SharedTurn P) turns { u := u } → runRepl P Json.Spec.codec turns { u := u } = (r, .ok ()) →
      Counted r.u.store → (∀ m, (ord m).Perm m) → (∀ m, (ord' m).Perm m) →
      saveBlob P Json.Spec.codec ord ord' iv r.u = .ok (some f') →
      SharedLife P f' (lastTable P Json.Spec.codec turns { u := u } t) r.u.store

end Verif.App.Spec
