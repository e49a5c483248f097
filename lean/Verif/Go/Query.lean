import Verif.Go.Url
/-!
# Model of queries in Go's `net/url` (Go 1.18): `QueryEscape`, `PathEscape`, `Values.Encode`, `URL.Query`
-/
namespace Verif.Url
open Verif

/-- `shouldEscape` for `encodeQueryComponent` -/
def queryEscapes (c : UInt8) : Bool := !(isAlnum c || (b! "-_.~").contains c)

def queryEscapeByte (c : UInt8) : Str :=
  if c = 32 then [43]
  else if queryEscapes c then [37, upperHex (c.toNat / 16), upperHex (c.toNat % 16)]
  else [c]

/-- `QueryEscape` -/
def queryEscape : Str → Str
  | [] => []
  | c :: s => queryEscapeByte c ++ queryEscape s

/-- `QueryUnescape`; `none`: an error -/
def queryUnescape : Str → Option Str
  | [] => some []
  | c :: s =>
    if c = 37 then
      match s with
      | a :: b :: s =>
        match unhex a, unhex b with
        | some x, some y => (queryUnescape s).map (UInt8.ofNat (x * 16 + y) :: ·)
        | _, _ => none
      | _ => none
    else (queryUnescape s).map ((if c = 43 then 32 else c) :: ·)

/-- `shouldEscape` for `encodePathSegment` -/
def segmentEscapes (c : UInt8) : Bool :=
  if isAlnum c || (b! "-_.~").contains c then false
  else if (b! "$&+,/:;=?@").contains c then c = 47 || c = 59 || c = 44 || c = 63
  else true

/-- `PathEscape` -/
def pathEscape : Str → Str
  | [] => []
  | c :: s => (if segmentEscapes c then [37, upperHex (c.toNat / 16), upperHex (c.toNat % 16)] else [c]) ++ pathEscape s

/-- `RawQuery` of a parsed url: what is after the first `?` that is before any `#` -/
def rawQuery (raw : Str) : Str := ((cut 63 (((cut 35 raw).map Prod.fst).getD raw)).map Prod.snd).getD []

/-- one `key=value` of a query; `none`: it is left out -/
def queryPair (part : Str) : Option (Str × Str) :=
  if part.contains 59 ∨ part = [] then none
  else
    let (k, v) := (cut 61 part).getD (part, [])
    match queryUnescape k, queryUnescape v with
    | some k, some v => some (k, v)
    | _, _ => none

/-- `ParseQuery` with the errors ignored, as `URL.Query` does -/
def parseQuery (q : Str) : List (Str × Str) := (split 38 q).filterMap queryPair

/-- `Values.Get` -/
def queryGet (q : List (Str × Str)) (key : Str) : Str := ((q.find? fun p => p.1 = key).map Prod.snd).getD []

end Verif.Url
