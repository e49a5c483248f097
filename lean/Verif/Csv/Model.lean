import Verif.Go.Fields
/-!
# Model of `encoding/csv`, as `export.go` and `import.go` use it

Writer and reader with the default settings (comma, no comments, no lazy quotes, `FieldsPerRecord = 0`, "\n" line ends). The
package is part of Go's standard library, not of /repo; export.go:37-56 and import.go:41-47 call it.
-/
namespace Verif.Csv
open Verif

def comma : UInt8 := 44
def quote : UInt8 := 34
def lf : UInt8 := 10
def cr : UInt8 := 13

/-! ## Writer -/

/-- `Writer.fieldNeedsQuotes` -/
def needsQuotes (f : Str) : Bool :=
  if f = [] then false
  else if f = b! "\\." then true
  else if f.contains comma || f.contains quote || f.contains cr || f.contains lf then true
  else isSpaceRune (decodeRune f).1

/-- the field between quotes; quotes are doubled, everything else is copied (`UseCRLF` is off) -/
def escape (f : Str) : Str := f.flatMap fun b => if b = quote then [quote, quote] else [b]

def writeField (f : Str) : Str := if needsQuotes f then quote :: escape f ++ [quote] else f

/-- the fields of a record with commas between them -/
def writeFields : List Str → Str
  | [] => []
  | [f] => writeField f
  | f :: rest => writeField f ++ comma :: writeFields rest

/-- `Writer.Write` -/
def writeRecord (r : List Str) : Str := writeFields r ++ [lf]

/-- all records, then `Flush` -/
def write (rs : List (List Str)) : Str := rs.flatMap writeRecord

/-! ## Reader -/

/-- `Reader.readLine` over the whole input: "\r\n" becomes "\n", and a "\r" at the very end is dropped. -/
def normalize : Str → Str
  | [] => []
  | [c] => if c = cr then [] else [c]
  | c :: d :: rest => if c = cr ∧ d = lf then lf :: normalize rest else c :: normalize (d :: rest)

/-- where `readRecord` stands -/
inductive St where
  | start       -- before a record
  | field       -- before a field that is not the first
  | bare        -- inside a field without quotes
  | quoted      -- inside quotes
  | closing     -- after a quote inside quotes
  deriving Repr, DecidableEq

/-- `Reader.readRecord` again and again: the records read and whether the end was reached without `ErrBareQuote` or
`ErrQuote`. `cur` is the field being read, `rec` the fields before it. -/
def parse : St → Str → List Str → Str → List (List Str) × Bool
  | .start, _, _, [] => ([], true)
  | .field, cur, rec, [] => ([rec ++ [cur]], true)
  | .bare, cur, rec, [] => ([rec ++ [cur]], true)
  | .quoted, _, _, [] => ([], false)
  | .closing, cur, rec, [] => ([rec ++ [cur]], true)
  | .start, _, _, c :: s =>
    if c = lf then parse .start [] [] s
    else if c = quote then parse .quoted [] [] s
    else if c = comma then parse .field [] [[]] s
    else parse .bare [c] [] s
  | .field, _, rec, c :: s =>
    if c = lf then
      let (rs, ok) := parse .start [] [] s
      ((rec ++ [[]]) :: rs, ok)
    else if c = quote then parse .quoted [] rec s
    else if c = comma then parse .field [] (rec ++ [[]]) s
    else parse .bare [c] rec s
  | .bare, cur, rec, c :: s =>
    if c = lf then
      let (rs, ok) := parse .start [] [] s
      ((rec ++ [cur]) :: rs, ok)
    else if c = comma then parse .field [] (rec ++ [cur]) s
    else if c = quote then ([], false)
    else parse .bare (cur ++ [c]) rec s
  | .quoted, cur, rec, c :: s =>
    if c = quote then parse .closing cur rec s else parse .quoted (cur ++ [c]) rec s
  | .closing, cur, rec, c :: s =>
    if c = quote then parse .quoted (cur ++ [quote]) rec s
    else if c = comma then parse .field [] (rec ++ [cur]) s
    else if c = lf then
      let (rs, ok) := parse .start [] [] s
      ((rec ++ [cur]) :: rs, ok)
    else ([], false)

/-- records up to the first whose number of fields differs from the first one's (`ErrFieldCount`) -/
def sameWidth (n : Nat) : List (List Str) → List (List Str) × Bool
  | [] => ([], true)
  | r :: rest => if r.length = n then ((sameWidth n rest).map (r :: ·) id) else ([], false)

/-- `Reader.Read` until an error: the records before it, and whether the error was `io.EOF` -/
def read (s : Str) : List (List Str) × Bool :=
  let (rs, ok) := parse .start [] [] (normalize s)
  match rs with
  | [] => ([], ok)
  | r :: _ =>
    let (rs', ok') := sameWidth r.length rs
    (rs', ok && ok')

end Verif.Csv
