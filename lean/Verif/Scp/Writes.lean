import Verif.Scp.Model
import Verif.App.Net
/-!
# Model of `scpsync/scpsync.go` with writes that may fail

The other side may end, or the connection may break, while bpass is writing. A write is told by whether it worked and how much of
it got through if not.
-/
namespace Verif.Scp
open Verif

/-- the outcome of a write: `none` = all of it was written, `some k` = an error after at most `k` bytes -/
abbrev Wrote := Option Nat

/-- what of a text got through -/
def through (w : Wrote) (s : Str) : Str :=
  match w with
  | none => s
  | some k => s.take k

/-- `readFile` (scpsync.go:231-298) with its three acknowledgements (scpsync.go:233, 269, 286); the error `none` is that of a write. -/
def readFileW (w0 w1 w2 : Wrote) (inp : Str) : Res (Option ScpErr) ScpFile :=
  if w0.isSome then .err none
  else
    match readLine inp with
    | none => .err (some .header)
    | some (str, rest) =>
      match str with
      | [] => .err (some .header)
      | c :: str =>
        if c = 1 ∨ c = 2 then .err (some (.remote c.toNat str))
        else if c ≠ 67 then .err (some .initialChar)
        else
          match fields str with
          | [f0, f1, f2] =>
            match parseOct32 f0 with
            | none => .err (some .mode)
            | some mode =>
              match parseDec32 f1 with
              | none => .err (some .length)
              | some length =>
                if w1.isSome then .err none
                else if length < 0 then .panic
                else
                  let buf := rest.take (length.toNat + 1)
                  if buf.length < length.toNat + 1 then .err (some .shortRead)
                  else if buf.getLast? ≠ some 0 then .err (some .noZero)
                  else if w2.isSome then .err none
                  else .ok { filename := f2, length := length, mode := mode, contents := buf.dropLast }
          | _ => .err (some .fieldCount)

/-- the first line that `sendFile` writes (scpsync.go:208) -/
def sendHeader (filename : Str) (mode : Nat) (contents : Str) : Str :=
  b! "C0" ++ fmtOct mode ++ b! " " ++ fmtNat contents.length ++ b! " " ++ base filename ++ b! "\n"

/-- `sendFile` (scpsync.go:206-229): what was written and how it ended. Nothing is written for empty contents (`io.Copy`), and what
the first read delivers is `first`. -/
def sendFileW (w0 w1 w2 : Wrote) (filename : Str) (mode : Nat) (contents first : Str) : Str × Res (Option ScpErr) Unit :=
  let header := sendHeader filename mode contents
  if w0.isSome then (through w0 header, .err none)
  else if contents ≠ [] ∧ w1.isSome then (header ++ through w1 contents, .err none)
  else if w2.isSome then (header ++ contents, .err none)
  else
    (header ++ contents ++ [0],
      match readResponse first with
      | .ok () => .ok ()
      | .err e => .err (some e)
      | .panic => .panic)

end Verif.Scp

namespace Verif.App
open Verif

/-- `Recv` (scpsync.go:66-118) with writes that may fail; `none`: crash. The error of a write is not one of scp's. -/
def receivedW (w0 w1 w2 : Scp.Wrote) (r : Reply) : Option Pulled :=
  if r.start = false then some .failed
  else
    match Scp.readFileW w0 w1 w2 r.out with
    | .panic => none
    | .err (some e) => some (if r.close && Scp.isNotFoundErr e then .notFound else .failed)
    | .err none => some .failed
    | .ok f => some (if r.exit && r.close then .bytes f.contents else .failed)

/-- `Send` (scpsync.go:123-178) with writes that may fail: what was written to a command that could be started, and whether it worked -/
def deliveredW (w0 w1 w2 : Scp.Wrote) (path ct : Str) (r : Reply) : Str × Bool :=
  if r.start = false then ([], false)
  else
    let x := Scp.sendFileW w0 w1 w2 path 384 ct r.first
    (x.1, (match x.2 with | .ok () => true | _ => false) && r.exit && r.close)

end Verif.App
