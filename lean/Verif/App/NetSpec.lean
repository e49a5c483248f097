import Verif.App.Net
import Verif.App.AddSyncSpec
import Verif.Go.UrlParse
import Verif.Go.Fields
/-!
# What the properties of the network side of `sync` talk about
-/
namespace Verif.App.Spec
open Verif Verif.Txlogs Verif.Blob Verif.Crypt Verif.App

/-- The file as scp on the other side gets it: without the first slash. -/
def relative (file : Str) : Str := if file.head? = some 47 then file.drop 1 else file

/-- The ways to log in for a password and a private key. -/
def loginWith (parseKey : Str → Option Str) (pass priv : Str) : List Auth :=
  (if pass = [] then [] else [.password pass]) ++ (if priv = [] then [] else ((parseKey priv).map Auth.key).toList)

/-- the line of the known hosts that counts for an address -/
def KnownLine (known address line : Str) : Prop :=
  ∃ pre post, split newline known = pre ++ line :: post ∧ (split space line).head? = some address ∧
    ∀ l ∈ pre, (split space l).head? ≠ some address

/-- no known host has this address -/
def Unknown (known address : Str) : Prop := ∀ l ∈ split newline known, (split space l).head? ≠ some address

/-- The key of the server is the one on record for the address. -/
def OnRecord (sha : Str → Str) (known address : Str) (s : Server) : Prop :=
  ∃ line a rest, KnownLine known address line ∧ split space line = address :: a :: s.keyType :: hexEncode (sha s.key) :: rest

/-- Nothing is on record for the address and the user accepts the server now. -/
def AcceptedNow (known address : Str) (inp : Input) : Prop :=
  Unknown known address ∧ (inp.head? = some (some (b! "y")) ∨ inp.head? = some (some (b! "Y")))

/-- the server something is sent to -/
def receiver : Sent → Server
  | .login s _ _ => s
  | .run s _ _ => s

/-- bytes that a shell takes as they are -/
def shellSafe (c : UInt8) : Bool := Url.isAlnum c || (b! "-_./+,:=@%").contains c

/-- A path that is one word of a command and no option. -/
def SafePath (path : Str) : Prop := path ≠ [] ∧ path.all shellSafe = true ∧ path.head? ≠ some 45

/-- The commands in a line, as a shell sees them: separated by `;`, `&`, `|` and newlines, each a list of words. Quotes, variables,
patterns and redirections are left out. -/
def shell (line : Str) : List (List Str) :=
  ((line.map fun c => if c = 59 ∨ c = 38 ∨ c = 124 then 10 else c) |> split 10).map fields

/-- A server with OpenSSH's scp that has the files `files`. It answers a file that is asked for with the message that `sendFile` would
write, a file that is missing with a message, and takes a file that is sent if `writable`. The first thing that it writes in sink
mode is an acknowledgement. -/
def scpServer (files : Str → Option Str) (writable : Bool) (cmd _stdin : Str) : Reply :=
  match shell cmd with
  | [[a, b, path]] =>
    if a = b! "scp" ∧ b = b! "-qf" then
      match files path with
      | some f => { out := Scp.sendFile path 384 f }
      | none => { out := 1 :: (b! "scp: " ++ path ++ b! ": No such file or directory\n"), exit := false }
    else if a = b! "scp" ∧ b = b! "-qt" then { first := [0], out := [0], exit := writable }
    else { exit := false }
  | _ => { exit := false }

/-- the file that scp in sink mode writes, and its contents -/
def scpStores (cmd stdin : Str) : Option (Str × Str) :=
  match shell cmd with
  | [[a, b, path]] =>
    if a = b! "scp" ∧ b = b! "-qt" then
      match Scp.readFile stdin with
      | .ok f => some (path, f.contents)
      | _ => none
    else none
  | _ => none

end Verif.App.Spec
