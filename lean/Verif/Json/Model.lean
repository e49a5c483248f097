import Verif.Txlogs.Model
import Verif.Go.Utf8
import Verif.Go.Hex
import Verif.Go.Fields
import Verif.Go.Strings
import Verif.Go.Sort
/-!
# Model of the text form of a store

`txlogs.New`, `txlogs.NewLog` and `DB.Save` (txlogs/txlogs.go:54-80) hand the work to `encoding/json`. This file models the part
of that library they use: `json.Marshal` of the struct types `DB` and `Tx` with their tags (txlogs.go:34-51, tx.go:18-31), and
`json.Unmarshal` into a pointer to a `DB` or a `storeNoSnapshot`.

Simplifications: the limit of 10000 nested brackets is not modelled; a `null` where a map of an entry is expected reads as the
empty map (Go: a nil map); after a `log` member given three times in one object with lengths going down and up again, Go can
reuse memory of the first, the model does not. None of these can occur in a file bpass wrote.
-/
namespace Verif.Json
open Verif Verif.Txlogs

/-! ## Writing -/

/-- an ASCII byte inside a string (`encodeState.string` with HTML escaping): quote and backslash escaped, newline, carriage return
and tab in short form, other control characters and `<`, `>`, `&` as `\u00xx` -/
def escAscii (b : UInt8) : Str :=
  if b = 34 ∨ b = 92 then [92, b]
  else if b = 10 then [92, 110]
  else if b = 13 then [92, 114]
  else if b = 9 then [92, 116]
  else if b.toNat < 0x20 ∨ b = 60 ∨ b = 62 ∨ b = 38 then
    [92, 117, 48, 48, hexDigit (b.toNat / 16), hexDigit (b.toNat % 16)]
  else [b]

/-- one decoded character with its bytes -/
def escPiece (p : Nat × Str) : Str :=
  if p.1 < 0x80 then escAscii (UInt8.ofNat p.1)
  else if p.1 = runeError ∧ p.2.length = 1 then b! "\\ufffd"
  else if p.1 = 0x2028 then b! "\\u2028"
  else if p.1 = 0x2029 then b! "\\u2029"
  else p.2

/-- the inside of a string literal -/
def escape (s : Str) : Str := (pieces s).flatMap escPiece

def quote (s : Str) : Str := 34 :: escape s ++ [34]

def member (name : Str) (v : Str) : Str := quote name ++ 58 :: v

def object (ms : List Str) : Str := 123 :: join 44 ms ++ [125]

def array (vs : List Str) : Str := 91 :: join 44 vs ++ [93]

/-- `TxKind` is a string type (tx.go:4-15) -/
def kindStr : TxKind → Str
  | .add => b! "add"
  | .del => b! "del"
  | .setk => b! "setk"
  | .delk => b! "delk"
  | .other s => s

/-- a string field tagged `omitempty` -/
def strField (name v : Str) : List Str := if v = [] then [] else [member name (quote v)]

/-- `Tx` (tx.go:18-31) -/
def marshalTx (t : Tx) : Str :=
  object ((if t.time = 0 then [] else [member (b! "time") (fmtInt t.time)])
    ++ strField (b! "kind") (kindStr t.kind) ++ strField (b! "uuid") t.uuid
    ++ strField (b! "key") t.key ++ strField (b! "value") t.value)

/-- a map is written with its keys in order -/
def marshalMap {ν : Type} (enc : ν → Str) (dflt : ν) (m : GoMap Str ν) : Str :=
  object ((sortStr (m.map Prod.fst)).map fun k => member k (enc ((m.get? k).getD dflt)))

/-- `Entry` (txlogs.go:47) -/
def marshalEntry (e : Entry) : Str := marshalMap quote [] e

/-- `json.Marshal` of a `DB` (txlogs.go:34-43) -/
def marshal (s : DB) : Str :=
  object ((if s.version = 0 then [] else [member (b! "version") (fmtNat s.version)])
    ++ (if s.snapshot = [] then [] else [member (b! "snapshot") (marshalMap marshalEntry [] s.snapshot)])
    ++ (if s.log = [] then [] else [member (b! "log") (array (s.log.map marshalTx))]))

/-- `Save` (txlogs.go:74-80) -/
def save (s : DB) : Res TxErr Str :=
  if s.txPoint ≠ 0 then .err .saveInTransaction else .ok (marshal s)

/-! ## Reading: text to values -/

inductive JVal where
  | null
  | bool (b : Bool)
  | num (lit : Str)
  | str (s : Str)
  | arr (vs : List JVal)
  | obj (ms : List (Str × JVal))
  deriving Repr

def isWs (b : UInt8) : Bool := b = 32 || b = 9 || b = 10 || b = 13

def skipWs (s : Str) : Str := s.dropWhile isWs

/-- a unit of a string literal: a byte, or a `\u` escape -/
inductive Unit1 where
  | byte (b : UInt8)
  | esc (u : Nat)
  deriving Repr, DecidableEq

def hex4 (a b c d : UInt8) : Option Nat :=
  match hexVal a, hexVal b, hexVal c, hexVal d with
  | some a, some b, some c, some d => some (4096 * a + 256 * b + 16 * c + d)
  | _, _, _, _ => none

/-- the byte a short escape stands for -/
def shortEsc (e : UInt8) : Option UInt8 :=
  if e = 34 ∨ e = 92 ∨ e = 47 then some e
  else if e = 98 then some 8
  else if e = 102 then some 12
  else if e = 110 then some 10
  else if e = 114 then some 13
  else if e = 116 then some 9
  else none

def consUnit (u : Unit1) : Option (List Unit1 × Str) → Option (List Unit1 × Str)
  | some (us, r) => some (u :: us, r)
  | none => none

/-- the units of a literal up to the closing quote, and what follows -/
def scanStr : Str → Option (List Unit1 × Str)
  | [] => none
  | c :: r =>
    if c = 34 then some ([], r)
    else if c = 92 then
      match r with
      | [] => none
      | e :: r1 =>
        if e = 117 then
          match r1 with
          | x :: y :: z :: w :: r2 =>
            match hex4 x y z w with
            | some u => consUnit (.esc u) (scanStr r2)
            | none => none
          | _ => none
        else
          match shortEsc e with
          | some b => consUnit (.byte b) (scanStr r1)
          | none => none
    else if c.toNat < 0x20 then none
    else consUnit (.byte c) (scanStr r)

/-- `utf16.IsSurrogate` -/
def isSurrogate (u : Nat) : Bool := 0xD800 ≤ u && u < 0xE000

/-- `utf16.DecodeRune`: the two halves of a pair -/
def isPair (u v : Nat) : Bool := u < 0xDC00 && 0xDC00 ≤ v && v < 0xE000

/-- bytes of the units; half a surrogate pair becomes U+FFFD -/
def unitBytes : List Unit1 → Str
  | [] => []
  | .byte b :: l => b :: unitBytes l
  | .esc u :: .esc v :: l =>
    if isSurrogate u then
      if isPair u v then encodeRune ((u - 0xD800) * 1024 + (v - 0xDC00) + 0x10000) ++ unitBytes l
      else encodeRune runeError ++ unitBytes (.esc v :: l)
    else encodeRune u ++ unitBytes (.esc v :: l)
  | .esc u :: l => encodeRune (if isSurrogate u then runeError else u) ++ unitBytes l

/-- ill-formed bytes become U+FFFD -/
def sanitize (s : Str) : Str := (pieces s).flatMap fun p => encodeRune p.1

/-- a string literal after its opening quote -/
def parseStr (s : Str) : Option (Str × Str) :=
  match scanStr s with
  | some (us, r) => some (sanitize (unitBytes us), r)
  | none => none

/-- digits at the front -/
def digits (s : Str) : Str × Str := (s.takeWhile isDigit, s.dropWhile isDigit)

/-- the optional fraction of a number -/
def fraction (s : Str) : Option (Str × Str) :=
  match s with
  | 46 :: r => if (digits r).1 = [] then none else some (46 :: (digits r).1, (digits r).2)
  | _ => some ([], s)

/-- the optional exponent of a number -/
def exponent (s : Str) : Option (Str × Str) :=
  match s with
  | [] => some ([], [])
  | e :: r =>
    if e = 101 ∨ e = 69 then
      let (sg, r) : Str × Str := match r with
        | 43 :: r => ([43], r)
        | 45 :: r => ([45], r)
        | r => ([], r)
      if (digits r).1 = [] then none else some (e :: sg ++ (digits r).1, (digits r).2)
    else some ([], s)

/-- a number literal without its sign -/
def unsigned (s : Str) : Option (Str × Str) :=
  let (i, r) : Str × Str := match s with
    | 48 :: r => ([48], r)
    | s => digits s
  if i = [] then none
  else
    match fraction r with
    | none => none
    | some (f, r) =>
      match exponent r with
      | none => none
      | some (e, r) => some (i ++ f ++ e, r)

def number (s : Str) : Option (Str × Str) :=
  match s with
  | 45 :: r =>
    match unsigned r with
    | some (l, r) => some (45 :: l, r)
    | none => none
  | s => unsigned s

/-- a literal name -/
def keyword (w : Str) (v : JVal) (s : Str) : Option (JVal × Str) :=
  if hasPrefix s w then some (v, s.drop w.length) else none

mutual
/-- a value; the first argument bounds the number of nested calls -/
def parseVal : Nat → Str → Option (JVal × Str)
  | 0, _ => none
  | f + 1, s =>
    match skipWs s with
    | [] => none
    | c :: r =>
      if c = 34 then
        match parseStr r with
        | some (t, r) => some (.str t, r)
        | none => none
      else if c = 91 then
        match skipWs r with
        | [] => none
        | d :: r' =>
          if d = 93 then some (.arr [], r')
          else
            match parseElems f r with
            | some (vs, r) => some (.arr vs, r)
            | none => none
      else if c = 123 then
        match skipWs r with
        | [] => none
        | d :: r' =>
          if d = 125 then some (.obj [], r')
          else
            match parseMembers f r with
            | some (ms, r) => some (.obj ms, r)
            | none => none
      else if c = 116 then keyword (b! "true") (.bool true) (c :: r)
      else if c = 102 then keyword (b! "false") (.bool false) (c :: r)
      else if c = 110 then keyword (b! "null") .null (c :: r)
      else
        match number (c :: r) with
        | some (l, r) => some (.num l, r)
        | none => none

/-- the elements of an array up to the closing bracket -/
def parseElems : Nat → Str → Option (List JVal × Str)
  | 0, _ => none
  | f + 1, s =>
    match parseVal f s with
    | none => none
    | some (v, r) =>
      match skipWs r with
      | [] => none
      | c :: r =>
        if c = 93 then some ([v], r)
        else if c = 44 then
          match parseElems f r with
          | some (vs, r) => some (v :: vs, r)
          | none => none
        else none

/-- the members of an object up to the closing brace -/
def parseMembers : Nat → Str → Option (List (Str × JVal) × Str)
  | 0, _ => none
  | f + 1, s =>
    match skipWs s with
    | [] => none
    | q :: r =>
      if q = 34 then
        match parseStr r with
        | none => none
        | some (k, r) =>
          match skipWs r with
          | [] => none
          | c :: r =>
            if c = 58 then
              match parseVal f r with
              | none => none
              | some (v, r) =>
                match skipWs r with
                | [] => none
                | c :: r =>
                  if c = 125 then some ([(k, v)], r)
                  else if c = 44 then
                    match parseMembers f r with
                    | some (ms, r) => some ((k, v) :: ms, r)
                    | none => none
                  else none
            else none
      else none
end

/-- the whole text is one value -/
def parse (s : Str) : Option JVal :=
  match parseVal (2 * s.length + 2) s with
  | some (v, r) => if skipWs r = [] then some v else none
  | none => none

/-! ## Reading: values to a store -/

/-- the struct field a member name selects: exact, else the first that matches without regard to case -/
def fieldOf (names : List Str) (key : Str) : Option Str :=
  if key ∈ names then some key else names.find? fun n => equalFold key n

/-- a string into a field holding `old` -/
def decStr (old : Str) : JVal → Option Str
  | .null => some old
  | .str s => some s
  | _ => none

/-- a number into an `int64` -/
def decInt (old : Int) : JVal → Option Int
  | .null => some old
  | .num l => atoi l
  | _ => none

/-- a number into a `uint` -/
def decUint (old : Nat) : JVal → Option Nat
  | .null => some old
  | .num l =>
    match parseDigits l with
    | some n => if n < 18446744073709551616 then some n else none
    | none => none
  | _ => none

def kindOf (s : Str) : TxKind :=
  if s = b! "add" then .add
  else if s = b! "del" then .del
  else if s = b! "setk" then .setk
  else if s = b! "delk" then .delk
  else .other s

def txFields : List Str := [b! "time", b! "kind", b! "uuid", b! "key", b! "value"]

def txMember (t : Tx) (m : Str × JVal) : Option Tx :=
  match fieldOf txFields m.1 with
  | none => some t
  | some f =>
    if f = b! "time" then (decInt t.time m.2).map fun x => { t with time := x }
    else if f = b! "kind" then (decStr (kindStr t.kind) m.2).map fun x => { t with kind := kindOf x }
    else if f = b! "uuid" then (decStr t.uuid m.2).map fun x => { t with uuid := x }
    else if f = b! "key" then (decStr t.key m.2).map fun x => { t with key := x }
    else (decStr t.value m.2).map fun x => { t with value := x }

/-- a sequence of steps that may each fail -/
def steps {α β : Type} (f : α → β → Option α) : α → List β → Option α
  | a, [] => some a
  | a, b :: l =>
    match f a b with
    | some a => steps f a l
    | none => none

/-- the zero `Tx` -/
def zeroTx : Tx := { time := 0, kind := .other [], uuid := [] }

def decTx (old : Tx) : JVal → Option Tx
  | .null => some old
  | .obj ms => steps txMember old ms
  | _ => none

/-- into a slice holding `old`: element by element into what is there -/
def decLog : List Tx → List JVal → Option (List Tx)
  | _, [] => some []
  | old, v :: vs =>
    match decTx (old.headD zeroTx) v with
    | none => none
    | some t =>
      match decLog old.tail vs with
      | some l => some (t :: l)
      | none => none

/-- a member of a map -/
def mapMember {ν : Type} (dec : JVal → Option ν) (m : GoMap Str ν) (p : Str × JVal) : Option (GoMap Str ν) :=
  (dec p.2).map fun x => m.set p.1 x

/-- into a map holding `old`; `null` makes it nil -/
def decMap {ν : Type} (dec : JVal → Option ν) (old : GoMap Str ν) : JVal → Option (GoMap Str ν)
  | .null => some []
  | .obj ms => steps (mapMember dec) old ms
  | _ => none

def decSlice (old : List Tx) : JVal → Option (List Tx)
  | .null => some []
  | .arr vs => decLog old vs
  | _ => none

def dbFields : List Str := [b! "version", b! "snapshot", b! "log"]

def dbMember (s : DB) (m : Str × JVal) : Option DB :=
  match fieldOf dbFields m.1 with
  | none => some s
  | some f =>
    if f = b! "version" then (decUint s.version m.2).map fun x => { s with version := x }
    else if f = b! "snapshot" then
      (decMap (decMap (decStr []) []) s.snapshot m.2).map fun x => { s with snapshot := x }
    else (decSlice s.log m.2).map fun x => { s with log := x }

/-- `New` (txlogs.go:54-61). The text `null` sets the pointer to nil: no store, no error. -/
def load (text : Str) : Res Unit (Option DB) :=
  match parse text with
  | none => .err ()
  | some .null => .ok none
  | some (.obj ms) =>
    match steps dbMember DB.new ms with
    | some s => .ok (some s)
    | none => .err ()
  | some _ => .err ()

def logMember (l : List Tx) (m : Str × JVal) : Option (List Tx) :=
  match fieldOf [b! "log"] m.1 with
  | none => some l
  | some _ => decSlice l m.2

/-- `NewLog` (txlogs.go:64-71). The text `null` sets the pointer to nil and `s.Log` then panics. -/
def loadLog (text : Str) : Res Unit (List Tx) :=
  match parse text with
  | none => .err ()
  | some .null => .panic
  | some (.obj ms) =>
    match steps logMember [] ms with
    | some l => .ok l
    | none => .err ()
  | some _ => .err ()

end Verif.Json
