import Verif.Go.Fields
/-!
# Model of `scpsync/scpsync.go`: the scp messages

The ssh session (`Recv`, `Send`) is outside the model: `readFile` gets everything the remote process writes before it
closes its output, `sendFile` yields everything bpass writes to it. Failing writes to the stream are not modelled.
-/
namespace Verif.Scp
open Verif

/-- `scpFile` (scpsync.go:183-188) -/
structure ScpFile where
  filename : Str
  length : Int
  mode : Int
  contents : Str
  deriving Repr, DecidableEq

/-- the errors of `readFile` and `readResponse`; `remote` is the type `Err` (scpsync.go:191-194) -/
inductive ScpErr where
  | header | initialChar | fieldCount | mode | length | shortRead | noZero
  | remote (code : Nat) (msg : Str)
  | noResponse | unknownResponse
  deriving Repr, DecidableEq

/-- value of an octal digit string -/
def parseOctDigits (s : Str) : Option Nat :=
  if s = [] then none
  else if s.all (fun b => 48 ≤ b.toNat && b.toNat ≤ 55) then
    some (s.foldl (fun n b => n * 8 + (b.toNat - 48)) 0)
  else none

/-- optional sign, octal digits -/
def parseOctSigned (s : Str) : Option Int :=
  match s with
  | [] => none
  | c :: d =>
    if c = 45 then (parseOctDigits d).map (fun n => -(n : Int))
    else (parseOctDigits (if c = 43 then d else c :: d)).map (fun n => (n : Int))

/-- the 32-bit range check of `strconv.ParseInt(_, _, 32)` -/
def int32 (i : Int) : Option Int := if -2147483648 ≤ i ∧ i ≤ 2147483647 then some i else none

/-- `strconv.ParseInt(s, 8, 32)` -/
def parseOct32 (s : Str) : Option Int := (parseOctSigned s).bind int32

/-- `strconv.ParseInt(s, 10, 32)` -/
def parseDec32 (s : Str) : Option Int := (parseSigned s).bind int32

/-- octal digits (`%o` of a non-negative number) -/
def octAux : Nat → Nat → Str → Str
  | 0, _, acc => acc
  | fuel + 1, n, acc =>
    let acc' := UInt8.ofNat (48 + n % 8) :: acc
    if n / 8 = 0 then acc' else octAux fuel (n / 8) acc'

def fmtOct (n : Nat) : Str := octAux (n + 1) n []

/-- `reader.ReadString('\n')`: the line with its newline, and the rest; `none` = end of stream before a newline. -/
def readLine : Str → Option (Str × Str)
  | [] => none
  | b :: s => if b = 10 then some ([10], s) else (readLine s).map (fun p => (b :: p.1, p.2))

/-- `readFile` (scpsync.go:231-298). `make([]byte, length+1)` panics for lengths below -1; for -1 the index
`Contents[len-1]` does. -/
def readFile (inp : Str) : Res ScpErr ScpFile :=
  match readLine inp with
  | none => .err .header
  | some (str, rest) =>
    match str with
    | [] => .err .header
    | c :: str =>
      if c = 1 ∨ c = 2 then .err (.remote c.toNat str)
      else if c ≠ 67 then .err .initialChar
      else
        match fields str with
        | [f0, f1, f2] =>
          match parseOct32 f0 with
          | none => .err .mode
          | some mode =>
            match parseDec32 f1 with
            | none => .err .length
            | some length =>
              if length < 0 then .panic
              else
                let buf := rest.take (length.toNat + 1)
                if buf.length < length.toNat + 1 then .err .shortRead
                else if buf.getLast? ≠ some 0 then .err .noZero
                else .ok { filename := f2, length := length, mode := mode, contents := buf.dropLast }
        | _ => .err .fieldCount

/-- drop trailing slashes -/
def stripSlashes (s : Str) : Str := (s.reverse.dropWhile (· = 47)).reverse

/-- `filepath.Base` on unix: `.` for the empty path, `/` for a path of slashes, otherwise what follows the last slash
after dropping trailing ones. -/
def base (s : Str) : Str :=
  if s = [] then b! "."
  else
    let t := stripSlashes s
    if t = [] then b! "/"
    else (t.reverse.takeWhile (· ≠ 47)).reverse

/-- what `sendFile` (scpsync.go:206-229) writes to the stream, for a non-negative mode and `ln` the size of the contents
(scpsync.go:164). -/
def sendFile (filename : Str) (mode : Nat) (contents : Str) : Str :=
  b! "C0" ++ fmtOct mode ++ b! " " ++ fmtNat contents.length ++ b! " " ++ base filename ++ b! "\n" ++ contents ++ [0]

/-- `readResponse` (scpsync.go:305-329) on what one `Read` delivered (at most 256 bytes). `Msg` is kept only for replies
longer than two bytes (319). -/
def readResponse (got : Str) : Res ScpErr Unit :=
  match got with
  | [] => .err .noResponse
  | c :: msg =>
    if c = 0 then .ok ()
    else if c = 1 ∨ c = 2 then .err (.remote c.toNat (if got.length > 2 then msg else []))
    else .err .unknownResponse

/-- ASCII lower case of a byte (`strings.ToLower` on ASCII messages) -/
def lowerByte (b : UInt8) : UInt8 := if 65 ≤ b.toNat ∧ b.toNat ≤ 90 then b + 32 else b

/-- `IsNotFoundErr` (scpsync.go:333-341). `strings.ToLower` maps non-ASCII letters to non-ASCII letters except
U+0130 and U+212A, which the searched text cannot gain a match from other than through `k`/`i`; the model lower-cases ASCII only. -/
def isNotFoundErr (e : ScpErr) : Bool :=
  match e with
  | .remote code msg => code = 1 && (indexOf (msg.map lowerByte) (b! "no such file or directory")).isSome
  | _ => false

end Verif.Scp
