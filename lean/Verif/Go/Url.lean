import Verif.Go.Strings
import Verif.Go.Hex
/-!
# Model of the part of Go's `net/url` (and of `net.JoinHostPort`) that bpass uses

`url.Parse`, `URL.String`, `URL.Hostname`, `URL.Port` (Go 1.18, the version of go.mod). Queries and fragments are cut off and
checked, but not kept; the query is read again from the text where it is needed (`Go/Query.lean`). `RawPath` is only set by `Parse` and never read by bpass, so it is left out.
-/
namespace Verif.Url
open Verif

/-- which part of a url is being escaped (`encoding`) -/
inductive Mode where
  | path | userPassword | host | zone | fragment
  deriving Repr, DecidableEq

def isAlnum (c : UInt8) : Bool :=
  (97 ≤ c.toNat && c.toNat ≤ 122) || (65 ≤ c.toNat && c.toNat ≤ 90) || (48 ≤ c.toNat && c.toNat ≤ 57)

/-- `shouldEscape` -/
def shouldEscape (m : Mode) (c : UInt8) : Bool :=
  if isAlnum c then false
  else if (m = .host ∨ m = .zone) ∧ c ∈ b! "!$&'()*+,;=:[]<>\"" then false
  else if c ∈ b! "-_.~" then false
  else if c ∈ b! "$&+,/:;=?@" ∧ m = .path then c = 63
  else if c ∈ b! "$&+,/:;=?@" ∧ m = .userPassword then c = 64 || c = 47 || c = 63 || c = 58
  else if c ∈ b! "$&+,/:;=?@" ∧ m = .fragment then false
  else if m = .fragment ∧ c ∈ b! "!()*" then false
  else true

/-- `upperhex[n]` -/
def upperHex (n : Nat) : UInt8 := UInt8.ofNat (if n < 10 then 48 + n else 55 + n)

def escapeByte (m : Mode) (c : UInt8) : Str :=
  if shouldEscape m c then [37, upperHex (c.toNat / 16), upperHex (c.toNat % 16)] else [c]

/-- `escape`; spaces become `+` only in queries -/
def escape (m : Mode) : Str → Str
  | [] => []
  | c :: s => escapeByte m c ++ escape m s

/-- `ishex`, `unhex` -/
def unhex (c : UInt8) : Option Nat :=
  if 48 ≤ c.toNat ∧ c.toNat ≤ 57 then some (c.toNat - 48)
  else if 97 ≤ c.toNat ∧ c.toNat ≤ 102 then some (c.toNat - 87)
  else if 65 ≤ c.toNat ∧ c.toNat ≤ 70 then some (c.toNat - 55)
  else none

/-- may `%ab` (with these values) stand in this part of a url? -/
def escapeOk (m : Mode) (a b : Nat) : Bool :=
  if m = .host then !(a < 8) || (a = 2 && b = 5)
  else if m = .zone then (a = 2 && b = 5) || a * 16 + b = 32 || !shouldEscape .host (UInt8.ofNat (a * 16 + b))
  else true

/-- `unescape`; `none`: an error -/
def unescape (m : Mode) : Str → Option Str
  | [] => some []
  | c :: s =>
    if c = 37 then
      match s with
      | a :: b :: s =>
        match unhex a, unhex b with
        | some x, some y => if escapeOk m x y then (unescape m s).map (UInt8.ofNat (x * 16 + y) :: ·) else none
        | _, _ => none
      | _ => none
    else if (m = .host ∨ m = .zone) ∧ c.toNat < 0x80 ∧ shouldEscape m c = true then none
    else (unescape m s).map (c :: ·)

/-- `strings.Cut` at the first `c`; `none`: there is none -/
def cut (c : UInt8) : Str → Option (Str × Str)
  | [] => none
  | b :: s => if b = c then some ([], s) else (cut c s).map fun p => (b :: p.1, p.2)

/-- what is before and after the last `c` (`strings.LastIndex`) -/
def lastCut (c : UInt8) : Str → Option (Str × Str)
  | [] => none
  | b :: s =>
    match lastCut c s with
    | some (x, y) => some (b :: x, y)
    | none => if b = c then some ([], s) else none

/-- A url. `user` is `nil` or a name with perhaps a password. -/
structure Url where
  scheme : Str := []
  opaq : Str := []
  user : Option (Str × Option Str) := none
  host : Str := []
  path : Str := []
  deriving Repr, DecidableEq

/-- `getScheme`: the scheme (empty if there is none) and the rest; `none`: the error "missing protocol scheme". `seen` is what was
read already. -/
def getScheme (whole : Str) : Str → Str → Option (Str × Str)
  | _, [] => some ([], whole)
  | seen, c :: s =>
    if (97 ≤ c.toNat ∧ c.toNat ≤ 122) ∨ (65 ≤ c.toNat ∧ c.toNat ≤ 90) then getScheme whole (seen ++ [c]) s
    else if (48 ≤ c.toNat ∧ c.toNat ≤ 57) ∨ c ∈ b! "+-." then
      if seen = [] then some ([], whole) else getScheme whole (seen ++ [c]) s
    else if c = 58 then
      if seen = [] then none else some (seen, s)
    else some ([], whole)

def lower (c : UInt8) : UInt8 := if 65 ≤ c.toNat ∧ c.toNat ≤ 90 then c + 32 else c

/-- `validOptionalPort` -/
def validOptionalPort : Str → Bool
  | [] => true
  | c :: s => c = 58 && s.all isDigit

/-- `strings.Index(s, "%25")`: what is before it, and it with the rest -/
def cutZone : Str → Option (Str × Str)
  | [] => none
  | c :: s => if hasPrefix (c :: s) (b! "%25") then some ([], c :: s) else (cutZone s).map fun p => (c :: p.1, p.2)

/-- `parseHost` -/
def parseHost (host : Str) : Option Str :=
  if host.head? = some 91 then
    match lastCut 93 host with
    | none => none
    | some (a, colonPort) =>
      if validOptionalPort colonPort then
        match cutZone a with
        | some (h1, h2) =>
          match unescape .host h1, unescape .zone h2, unescape .host (93 :: colonPort) with
          | some x, some y, some z => some (x ++ y ++ z)
          | _, _, _ => none
        | none => unescape .host host
      else none
  else
    match lastCut 58 host with
    | some (_, p) => if validOptionalPort (58 :: p) then unescape .host host else none
    | none => unescape .host host

/-- `validUserinfo` -/
def validUserinfo (s : Str) : Bool := s.all fun c => isAlnum c || (b! "-._:~!$&'()*+,;=%@").contains c

/-- `parseAuthority` -/
def parseAuthority (a : Str) : Option (Option (Str × Option Str) × Str) :=
  match lastCut 64 a with
  | none => (parseHost a).map fun h => (none, h)
  | some (userinfo, h) =>
    match parseHost h with
    | none => none
    | some host =>
      if validUserinfo userinfo then
        match cut 58 userinfo with
        | none => (unescape .userPassword userinfo).map fun u => (some (u, none), host)
        | some (u, p) =>
          match unescape .userPassword u, unescape .userPassword p with
          | some u, some p => some (some (u, some p), host)
          | _, _ => none
      else none

/-- the query cut off: what is before the first `?` (a trailing single `?` is dropped too) -/
def dropQuery (s : Str) : Str := ((cut 63 s).map Prod.fst).getD s

/-- `parse(rawURL, false)` -/
def parse' (raw : Str) : Option Url :=
  if raw.any fun c => c.toNat < 32 || c.toNat = 127 then none
  else if raw = b! "*" then some { path := b! "*" }
  else
    match getScheme raw [] raw with
    | none => none
    | some (scheme, rest) =>
      let scheme := scheme.map lower
      let rest := dropQuery rest
      if rest.head? ≠ some 47 ∧ scheme ≠ [] then some { scheme := scheme, opaq := rest }
      else if rest.head? ≠ some 47 ∧ (((cut 47 rest).map Prod.fst).getD rest).contains 58 then none
      else if (scheme ≠ [] ∨ hasPrefix rest (b! "///") = false) ∧ hasPrefix rest (b! "//") = true then
        let authority := rest.drop 2
        let (authority, rest) := match cut 47 authority with
          | some (a, r) => (a, 47 :: r)
          | none => (authority, [])
        match parseAuthority authority with
        | none => none
        | some (user, host) =>
          (unescape .path rest).map fun p => { scheme := scheme, user := user, host := host, path := p }
      else (unescape .path rest).map fun p => { scheme := scheme, path := p }

/-- `url.Parse` -/
def parse (raw : Str) : Option Url :=
  match cut 35 raw with
  | none => parse' raw
  | some (u, frag) =>
    match parse' u with
    | none => none
    | some url => (unescape .fragment frag).map fun _ => url

/-- `Userinfo.String` followed by `@` -/
def userString : Option (Str × Option Str) → Str
  | none => []
  | some (u, none) => escape .userPassword u ++ [64]
  | some (u, some p) => escape .userPassword u ++ [58] ++ escape .userPassword p ++ [64]

/-- `EscapedPath` of a url without `RawPath` -/
def writePath (path : Str) : Str := if path = b! "*" then b! "*" else escape .path path

/-- `URL.String` of a url without query and fragment, with a scheme -/
def toString (u : Url) : Str :=
  if u.opaq ≠ [] then u.scheme ++ [58] ++ u.opaq
  else
    let path := writePath u.path
    u.scheme ++ [58] ++ (if u.host ≠ [] ∨ u.path ≠ [] ∨ u.user ≠ none then b! "//" else []) ++ userString u.user ++ escape .host u.host ++
      (if path ≠ [] ∧ path.head? ≠ some 47 ∧ u.host ≠ [] then [47] else []) ++ path

/-- `splitHostPort` -/
def splitHostPort (h : Str) : Str × Str :=
  let (host, port) := match lastCut 58 h with
    | some (a, p) => if validOptionalPort (58 :: p) then (a, p) else (h, [])
    | none => (h, [])
  (if host.head? = some 91 ∧ host.getLast? = some 93 then (host.drop 1).dropLast else host, port)

/-- `URL.Hostname` -/
def Url.hostname (u : Url) : Str := (splitHostPort u.host).1
/-- `URL.Port` -/
def Url.port (u : Url) : Str := (splitHostPort u.host).2

/-- `net.JoinHostPort` -/
def joinHostPort (host port : Str) : Str :=
  if host.contains 58 then [91] ++ host ++ [93, 58] ++ port else host ++ [58] ++ port

end Verif.Url
