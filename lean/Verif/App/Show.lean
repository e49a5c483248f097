import Verif.App.Commands
import Verif.Go.Sort
/-!
# Model of what the reading commands print

`Verif.App.Commands` says which entries `ls`, `labels` and `show` find. Here is the text they print. Colours are left out; the
text of an error of the one-time password library and the form of a date are arguments.
-/
namespace Verif.App
open Verif Verif.Txlogs Verif.Blob Verif.Crypt

/-- the lines `ls` and `labels` print (commands.go:632-639, 647-655); `ord'` is the order in which `Names` (blobs.go:58-64) visits
the results -/
def lsLines (ord' : Results → Results) (r : Results) : List Str :=
  if r = [] then [b! "No entries found"] else sortStr ((ord' r).map Prod.snd)

/-- `%-*s` (fmt counts characters) -/
def padRight (width : Nat) (s : Str) : Str := s ++ List.replicate (width - (runes s).length) 32

/-- the beginning of a line -/
def keyColumn (width : Nat) (key : Str) : Str := b! "  " ++ padRight width (key ++ b! ":")

/-- `showKeyValue` and `showHidden` with indent 2 (commands.go:1150-1158) -/
def keyValueText (width : Nat) (key value : Str) : Str := keyColumn width key ++ 32 :: value ++ [10]

/-- `strings.Join` with a separator of more than one byte -/
def joinStr (sep : Str) : List Str → Str
  | [] => []
  | [x] => x
  | x :: y :: l => x ++ sep ++ joinStr sep (y :: l)

/-- `showMultiline` with indent 2 (commands.go:1160-1172) -/
def multilineText (width : Nat) (key value : Str) : Str :=
  keyColumn width key ++ [10] ++ b! "    " ++ trimSpace (joinStr (10 :: b! "    ") (split 10 value)) ++ [10]

/-- the width of the first column (commands.go:1069-1076): the keys are visited in the order of the map -/
def showWidth (keys : List Str) : Nat := keys.foldl (fun w k => if k.length > w then k.length + 1 else w) 8

/-- the keys shown first (commands.go:1080-1089) -/
def showFirst : List Str := [keyName, keyUser, keyEmail, keyPass, keyTwoFactor, keyLabels, keyNotes]

/-- removing a key from the slice (commands.go:1093-1099): the last one takes its place -/
def dropKey (o : Str) : List Str → List Str
  | [] => []
  | k :: l => if k = o then (match l.getLast? with | none => [] | some z => z :: l.dropLast) else k :: dropKey o l

/-- the keys in the order in which they are shown (commands.go:1080-1102) -/
def showKeys (keys : List Str) : List Str := showFirst ++ sortStr (showFirst.foldl (fun ks o => dropKey o ks) keys)

/-- `strings.ReplaceAll(val, ",", ", ")` -/
def spreadLabels (value : Str) : Str := value.flatMap fun c => if c = comma then [comma, 32] else [c]

/-- what is printed for one key of the entry, if anything (commands.go:1104-1133); `totpErr` is the text of the error of
`TwoFactor` -/
def showOne (v : Env) (totpErr : Str) (width : Nat) (e : Entry) (k : Str) : Option Str :=
  if k = keyUpdated then none
  else
    match e.get? k with
    | none => none
    | some x =>
      if k = keyPass then some (keyValueText width k x)
      else if k = keyLabels then some (keyValueText width k (spreadLabels x))
      else if k = keyTwoFactor then
        match (if x = [] then some [] else v.totp x) with
        | none => some (b! "Error retrieving two factor: " ++ totpErr ++ [10])
        | some code => if code = [] then none else some (keyValueText width k code)
      else if 10 ∈ x then some (multilineText width k x)
      else some (keyValueText width k x)

/-- the part of the text for the keys of the entry: every key shown, and its text (commands.go:1104-1133). `keys` is the order in
which `Keys` (blob.go:19-24) visits the map. -/
def showLines (v : Env) (totpErr : Str) (keys : List Str) (e : Entry) : List (Str × Str) :=
  (showKeys keys).filterMap fun k => (showOne v totpErr (showWidth keys) e k).map fun t => (k, t)

/-- the last lines (commands.go:1135-1145); `date` is `Format(time.RFC3339)`, `snaps` the number of operations on the entry if the
current version is shown and 0 otherwise; `none` = the time stamp cannot be read (an error) -/
def showTail (date : Int → Str) (width : Nat) (e : Entry) (snaps : Nat) : Option Str :=
  match updated e with
  | none => none
  | some t =>
    some ((match t with | none => [] | some t => keyValueText width keyUpdated (date t)) ++
      if snaps = 0 then [] else keyValueText width (b! "snaps") (fmtNat snaps))

/-- everything `show` prints of an entry (commands.go:1064-1148) -/
def showText (v : Env) (totpErr : Str) (date : Int → Str) (keys : List Str) (e : Entry) (snaps : Nat) : Option Str :=
  if e = [] then some (b! "entry is empty\n")
  else (showTail date (showWidth keys) e snaps).map fun t =>
    ((showLines v totpErr keys e).map Prod.snd).flatten ++ t

end Verif.App
