import Verif.App.Sync
import Verif.App.Commands
import Verif.Scp.Model
import Verif.Go.Url
/-!
# Model of what `sync` does on the network (`sshConfig`, `sshPull`, `sshPush` in sync.go, `Recv`, `Send` in scpsync.go)

The ssh library is modelled by what bpass can see of it: the other side shows a host key, the callback decides about it, then the
user name and the ways to log in are offered, then one command is run. That the other side really has the private key of the host
key it shows is the business of ssh and taken for granted. Writes to the connection do not fail.
-/
namespace Verif.App
open Verif Verif.Txlogs Verif.Blob Verif.Crypt

/-- the address that `addsync scp` records (commands.go:392-395, 463, 341) -/
def scpUrl (user host port file : Str) (pass : Option Str) : Str :=
  Url.toString { scheme := syncSCP, user := some (user, pass), host := Url.joinHostPort host port, path := file }

/-- the address that `addsync file` records (commands.go:332, 341); `abs` is the absolute path -/
def fileUrl (abs : Str) : Str := Url.toString { scheme := syncFile, path := abs }

/-- the check that `set` makes of urls (commands.go:804-811) -/
def urlOk (value : Str) : Bool :=
  match Url.parse value with
  | none => false
  | some u => u.scheme ≠ [] && u.opaq = []

/-- a way to log in: `ssh.Password`, `ssh.PublicKeys` -/
inductive Auth where
  | password (pass : Str)
  | key (signer : Str)
  deriving Repr, DecidableEq

/-- what `sshConfig` returns -/
structure SshConfig where
  address : Str
  path : Str
  user : Str
  auth : List Auth
  deriving Repr, DecidableEq

inductive ConfErr where
  | url | noUser | noHost | noPath | privateKey
  deriving Repr, DecidableEq

/-- `sshConfig` (sync.go:369-409). `parseKey` stands for `ssh.ParsePrivateKey`. `uri.Path[1:]` of an empty path is a panic. -/
def sshConfig (parseKey : Str → Option Str) (e : Entry) : Res ConfErr SshConfig :=
  match Url.parse (val e keyURL) with
  | none => .err .url
  | some uri =>
    match uri.path with
    | [] => .panic
    | _ :: path =>
      let user := (uri.user.map Prod.fst).getD []
      let pass := (uri.user.bind Prod.snd).getD []
      if user = [] then .err .noUser
      else if uri.hostname = [] then .err .noHost
      else if path = [] then .err .noPath
      else
        let c : SshConfig := { address := Url.joinHostPort uri.hostname uri.port
                               path := path
                               user := user
                               auth := if pass ≠ [] then [.password pass] else [] }
        if val e keyPriv = [] then .ok c
        else
          match parseKey (val e keyPriv) with
          | none => .err .privateKey
          | some k => .ok { c with auth := c.auth ++ [.key k] }

/-- what running a command on the other side gives: whether it could be started, what it wrote, what the first read of that
yields, whether it ended well, and whether the connection could be closed without an error -/
structure Reply where
  start : Bool := true
  out : Str := []
  first : Str := []
  exit : Bool := true
  close : Bool := true
  deriving Repr, DecidableEq

/-- Somebody who answers at an address: the remote address, the host key, who may log in, and what running a command with some
input gives. -/
structure Server where
  addr : Str
  keyType : Str
  key : Str
  login : Str → List Auth → Bool
  run : Str → Str → Reply

/-- what is sent to the other side once the connection stands -/
inductive Sent where
  | login (to : Server) (user : Str) (auth : List Auth)
  | run (to : Server) (cmd stdin : Str)

/-- the world outside -/
structure Outside where
  /-- who answers at an address -/
  net : Str → Option Server
  /-- SHA-256 -/
  sha : Str → Str
  /-- `ssh.ParsePrivateKey` -/
  parseKey : Str → Option Str
  /-- `ioutil.ReadFile` -/
  read : Str → Pulled
  /-- `ioutil.WriteFile`: whether it worked -/
  write : Str → Str → Bool

/-- `ssh.Dial` ended -/
inductive Dialed where
  | crash
  | failed
  | up (s : Server)

/-- what came of a conversation: outcome, new known-hosts line, what was sent, input left -/
structure Talk (α : Type) where
  out : α
  host : Str := []
  sent : List Sent := []
  rest : Input

/-- what ssh hands to the host key callback: the name is the address that was dialled -/
def hostKey (address : Str) (s : Server) : HostKey :=
  { hostname := address
    addr := s.addr
    keyType := s.keyType
    blob := s.key }

/-- `ssh.Dial` with the callback of `hostAsker` (sync.go:340-342, 358-360; scpsync.go:67, 124). Only ed25519 and RSA host keys are
asked for (sync.go:394). -/
def dial (o : Outside) (c : SshConfig) (known : Str) (inp : Input) : Talk Dialed :=
  match o.net c.address with
  | none => { out := .failed, rest := inp }
  | some s =>
    if s.keyType ≠ b! "ssh-ed25519" ∧ s.keyType ≠ b! "ssh-rsa" then { out := .failed, rest := inp }
    else
      match callback o.sha known (hostKey c.address s) inp with
      | (.panic, rest) => { out := .crash, rest := rest }
      | (.err _, rest) => { out := .failed, rest := rest }
      | (.ok h, rest) =>
        { out := if s.login c.user c.auth then .up s else .failed
          host := h.getD []
          sent := [.login s c.user c.auth]
          rest := rest }

def recvCmd (path : Str) : Str := b! "scp -qf " ++ path   -- scpsync.go:99
def sendCmd (path : Str) : Str := b! "scp -qt " ++ path   -- scpsync.go:156

/-- what `Recv` (scpsync.go:66-118) makes of the reply; `none`: crash. An error from closing the connection hides the type of the
first error, so that `IsNotFoundErr` is false. -/
def received (r : Reply) : Option Pulled :=
  if r.start = false then some .failed
  else
    match Scp.readFile r.out with
    | .panic => none
    | .err e => some (if r.close && Scp.isNotFoundErr e then .notFound else .failed)
    | .ok f => some (if r.exit && r.close then .bytes f.contents else .failed)

/-- `sshPull` (sync.go:333-349), with the error for a missing file as `pullBlob` reports it (sync.go:272-274) -/
def sshPull (o : Outside) (e : Entry) (inp : Input) : Talk (Option Pulled) :=
  match sshConfig o.parseKey e with
  | .panic => { out := none, rest := inp }
  | .err _ => { out := some .failed, rest := inp }
  | .ok c =>
    let t := dial o c (val e keyKnownHosts) inp
    match t.out with
    | .crash => { out := none, host := t.host, sent := t.sent, rest := t.rest }
    | .failed => { out := some .failed, host := t.host, sent := t.sent, rest := t.rest }
    | .up s =>
      { out := received (s.run (recvCmd c.path) [0, 0, 0])
        host := t.host
        sent := t.sent ++ [.run s (recvCmd c.path) [0, 0, 0]]
        rest := t.rest }

/-- what `Send` (scpsync.go:123-178) makes of the reply -/
def delivered (r : Reply) : Bool :=
  r.start && (match Scp.readResponse r.first with | .ok () => true | _ => false) && r.exit && r.close

/-- what is sent for a file: mode 0600 (sync.go:361) -/
def sendInput (path ct : Str) : Str := Scp.sendFile path 384 ct

/-- `sshPush` (sync.go:351-367): whether it worked; a new host line is only returned if it did -/
def sshPush (o : Outside) (e : Entry) (ct : Str) (inp : Input) : Talk (Option Bool) :=
  match sshConfig o.parseKey e with
  | .panic => { out := none, rest := inp }
  | .err _ => { out := some false, rest := inp }
  | .ok c =>
    let t := dial o c (val e keyKnownHosts) inp
    match t.out with
    | .crash => { out := none, sent := t.sent, rest := t.rest }
    | .failed => { out := some false, sent := t.sent, rest := t.rest }
    | .up s =>
      let ok := delivered (s.run (sendCmd c.path) (sendInput c.path ct))
      { out := some ok
        host := if ok then t.host else []
        sent := t.sent ++ [.run s (sendCmd c.path) (sendInput c.path ct)]
        rest := t.rest }

/-- the path of a `file` url (sync.go:276, 299); `filepath.FromSlash` changes nothing on unix -/
def filePath (e : Entry) : Str := ((Url.parse (val e keyURL)).map (·.path)).getD []

/-- the world as `sync` sees it -/
def netWorld (o : Outside) : World where
  scheme raw := (Url.parse raw).map (·.scheme)
  sshPull _ e inp := let t := sshPull o e inp; (t.out.map fun p => (p, t.host), t.rest)
  readFile _ e := o.read (filePath e)
  sshPush _ e ct inp := let t := sshPush o e ct inp; (t.out.map fun ok => (ok, t.host), t.rest)
  writeFile _ e ct := o.write (filePath e) ct

end Verif.App
