import Verif.App.Input
import Verif.Blob.Model
import Verif.Go.Hex
/-!
# Model of the host key check (`hostAsker.callback`, `saveHosts` in sync.go)
-/
namespace Verif.App
open Verif Verif.Txlogs Verif.Blob

def space : UInt8 := 32
def newline : UInt8 := 10

/-- what the ssh library hands to the callback: host name, remote address, key type and marshalled key -/
structure HostKey where
  hostname : Str
  addr : Str
  keyType : Str
  blob : Str
  deriving Repr, DecidableEq

/-- errors of `callback` -/
inductive HostErr where
  | typeChanged
  | keyChanged
  | noAnswer
  | rejected
  deriving Repr, DecidableEq

/-- `fmt.Sprintf("%x", sha256.Sum256(key.Marshal()))` (sync.go:419-420); `sha` stands for SHA-256. -/
def keyHash (sha : Str → Str) (k : HostKey) : Str := hexEncode (sha k.blob)

/-- `hostLine` (sync.go:424) -/
def hostLine (sha : Str → Str) (k : HostKey) : Str :=
  join space [k.hostname, k.addr, k.keyType, keyHash sha k]

/-- the loop over the known lines (sync.go:428-445): `ok true` = "seen before and everything is OK", `ok false` = no line
for this host. `vals[2]`, `vals[3]` out of range is a panic. -/
def checkKnown (sha : Str → Str) (k : HostKey) : List Str → Res HostErr Bool
  | [] => .ok false
  | line :: lines =>
    let vals := split space line
    if vals.head? ≠ some k.hostname then checkKnown sha k lines
    else
      match vals[2]? with
      | none => .panic
      | some t =>
        if t ≠ k.keyType then .err .typeChanged
        else
          match vals[3]? with
          | none => .panic
          | some h => if h ≠ keyHash sha k then .err .keyChanged else .ok true

/-- `callback` (sync.go:417-471): on success `newHost` (`none`: left empty); and the remaining input. -/
def callback (sha : Str → Str) (known : Str) (k : HostKey) (inp : Input) :
    Res HostErr (Option Str) × Input :=
  match checkKnown sha k (split newline known) with
  | .panic => (.panic, inp)
  | .err e => (.err e, inp)
  | .ok true => (.ok none, inp)
  | .ok false =>
    match prompt inp with
    | (none, rest) => (.err .noAnswer, rest)
    | (some line, rest) =>
      if line = b! "y" ∨ line = b! "Y" then (.ok (some (hostLine sha k)), rest)
      else (.err .rejected, rest)

/-- the value stored by `saveHosts` (sync.go:208-216) -/
def appendHost (hosts hostentry : Str) : Str :=
  if hosts = [] then hostentry else join newline (split newline hosts ++ [hostentry])

/-- the loop of `saveHosts` (sync.go:206-217); a missing entry reads as an empty value. The argument list is the map of new
hosts in visiting order, `now` the clock. -/
def saveHostsLoop (now : Nat → Int) (s : DB) : List (Str × Str) → DB
  | [] => s
  | (uuid, hostentry) :: rest =>
    let hosts := val ((s.snapshot.get? uuid).getD []) keyKnownHosts
    saveHostsLoop (fun i => now (i + 1)) (s.setKey (now 0) uuid keyKnownHosts (appendHost hosts hostentry)) rest

/-- `saveHosts` (sync.go:205-220) -/
def saveHosts (now : Nat → Int) (s : DB) (newHosts : List (Str × Str)) : DB × Option TxErr :=
  (saveHostsLoop now s newHosts).updateSnapshot

end Verif.App
