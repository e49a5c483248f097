import Verif.App.AccountsSpec
import Verif.App.SoundSpec
import Verif.Json.Spec
/-!
# What the properties of saved sessions talk about
-/
namespace Verif.App.Spec
open Verif Verif.Txlogs Verif.Blob Verif.Crypt Verif.App

/-- fits an `int64` -/
def FitsInt64 (i : Int) : Prop := -9223372036854775808 ≤ i ∧ i ≤ 9223372036854775807

/-- All operations in the log are made of well-formed text, and their times fit an `int64`. -/
def CleanLog (s : DB) : Prop := ∀ t ∈ s.log, Json.Spec.CleanTx t ∧ FitsInt64 t.time

/-- What a turn takes from outside is well-formed text. -/
structure TextEnv (v : Env) : Prop where
  typed : ∀ x, some x ∈ v.d.inp → ValidUtf8 x
  uuid : ValidUtf8 v.d.uuid
  otp : ∀ w x, ValidUtf8 w → ValidUtf8 x → ValidUtf8 (v.otpUri w x)
  editor : ∀ x y, ValidUtf8 x → v.editor x = some (some y) → ValidUtf8 y
  fileUrl : ∀ x y, ValidUtf8 x → v.fileUrl x = some y → ValidUtf8 y
  scpUrl : ∀ a b c d p, ValidUtf8 a → ValidUtf8 b → ValidUtf8 c → ValidUtf8 d → (∀ x, p = some x → ValidUtf8 x) →
    ValidUtf8 (v.scpUrl a b c d p)
  keypair : ∀ a b, v.keys = some (a, b) → ValidUtf8 a ∧ ValidUtf8 b

/-- What a turn takes from outside is well-formed text, and clock readings fit an `int64`. -/
structure CleanEnv (v : Env) : Prop extends TextEnv v where
  now : ∀ i, FitsInt64 (v.d.now i)
  nows : ∀ j i, FitsInt64 ((v.ds j).now i)

/-- A turn in which everything typed is well-formed text. -/
structure TextTurn (v : Env) (line : Str) (r : Repl) : Prop where
  legal : LegalTurn v line r
  text : TextEnv v

/-- A turn in which everything is well-formed text. -/
structure CleanTurn (v : Env) (line : Str) (r : Repl) : Prop where
  legal : LegalTurn v line r
  clean : CleanEnv v

/-- The number of operations fits the field that counts them. -/
def Counted (s : DB) : Prop := s.log.length < 18446744073709551616

/-- A session in a single-user file that `pass` opens. `creds.pass` is empty in the session that creates the file. -/
structure OwnSession (P : Prims) (u : Session) (pass : Str) : Prop where
  writable : u.readOnly = false
  user : u.creds.user = []
  creds : SingleCreds u.creds
  pass_ne : pass ≠ []
  key : u.creds.key = P.kdf pass u.creds.salt
  typed : u.creds.pass = pass ∨ u.creds.pass = []

/-- A turn in a single-user file that keeps it one; salts have the right size. -/
structure OwnTurn (v : Env) (line : Str) (r : Repl) : Prop where
  turn : CleanTurn v line r
  salt : v.d.salt.length = 32
  noAdd : ∀ args, parseLine line ≠ some (b! "adduser", args)

/-- The password that counts after a line. -/
def passAfter (v : Env) (line : Str) (pass : Str) : Str :=
  match parseLine line with
  | some (cmd, _) =>
    if cmd = b! "passwd" then
      match getPassword v.d.ent v.d.inp with
      | .ok p => if p = [] then pass else p
      | _ => pass
    else pass
  | none => pass

/-- The password that counts at the end of the session: the last one given to `passwd` that is not empty, or the one at the
start. -/
def lastPass (P : Prims) (C : Codec) : List Turn → Repl → Str → Str
  | [], _, pass => pass
  | (none, _) :: _, _, pass => pass
  | (some line, v) :: rest, r, pass =>
    match runLine P C v line r with
    | (r, .ok false) => lastPass P C rest r (passAfter v line pass)
    | _ => passAfter v line pass

/-- A single-user file, the password that counts and what the file holds, after any number of sessions without `sync` and
`adduser`, each ended normally. The codec is the JSON text. -/
inductive Life (P : Prims) : Str → Str → DB → Prop where
  | new {pass salt : Str} {inp : Input} {u : Session} {turns : List Turn} {r : Repl} {ord : Order} {ord' : Results → Results}
      {iv f : Str} :
      salt.length = 32 → createFile P none salt (some pass :: some pass :: inp) = (.ok u, inp) →
      Along P Json.Spec.codec OwnTurn turns { u := u } → runRepl P Json.Spec.codec turns { u := u } = (r, .ok ()) →
      Counted r.u.store → iv.length = 40 → saveBlob P Json.Spec.codec ord ord' iv r.u = .ok (some f) →
      Life P f (lastPass P Json.Spec.codec turns { u := u } pass) r.u.store
  | next {f pass : Str} {s : DB} {inp : Input} {u : Session} {turns : List Turn} {r : Repl} {ord : Order}
      {ord' : Results → Results} {iv f' : Str} :
      Life P f pass s → openFile P Json.Spec.codec none f [some pass] = (.ok u, inp) →
      Along P Json.Spec.codec OwnTurn turns { u := u } → runRepl P Json.Spec.codec turns { u := u } = (r, .ok ()) →
      Counted r.u.store → iv.length = 40 → saveBlob P Json.Spec.codec ord ord' iv r.u = .ok (some f') →
      Life P f' (lastPass P Json.Spec.codec turns { u := u } pass) r.u.store

end Verif.App.Spec
