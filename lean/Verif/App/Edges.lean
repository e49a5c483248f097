import Verif.App.Commands
import Verif.Go.Sort
/-!
# Model of the edges of the program: pinentry, the hidden prompt on Windows, the choice of the file, completion

Programs that are started and the console are outside the model: what they deliver is an argument.
-/
namespace Verif.App
open Verif Verif.Txlogs Verif.Blob

/-! ## pinentry/pinentry.go -/

/-- `pinEntryReplace.Replace` (pinentry.go:27-31, 142): the first of the three texts at each place is replaced; they begin alike
but none is the beginning of another. -/
def pinReplace : Str → Str
  | [] => []
  | c :: r =>
    if c = 37 then
      match r with
      | 50 :: 53 :: r => 37 :: pinReplace r
      | 48 :: 68 :: r => 13 :: pinReplace r
      | 48 :: 65 :: r => 10 :: pinReplace r
      | r => c :: pinReplace r
    else c :: pinReplace r

/-- the outcome of `Password`; an error is anything but `ErrNotFound` -/
inductive Pin | notFound | err | ok (password : Str)
deriving DecidableEq, Repr

/-- the answers to the settings (pinentry.go:103-121): what is left, unless one of them is not "OK" or missing -/
def pinSetup : Nat → List Str → Option (List Str)
  | 0, ls => some ls
  | n + 1, l :: ls => if l = b! "OK" then pinSetup n ls else none
  | _ + 1, [] => none

/-- `Password` (pinentry.go:41-143). `found`: there is a program and `$PINENTRY` is not "none"; `starts`: it can be started;
`settings`: the number of settings sent, 3 to 5 (depending on the environment); `ls`: the lines the program writes; `exits`: it ends with
status 0. A line that is missing panics, which is recovered and turned into an error (pinentry.go:82-86). Failing writes to the
program are not modelled. -/
def pinentry (found starts : Bool) (settings : Nat) (ls : List Str) (exits : Bool) : Pin :=
  if ¬ found then .notFound
  else if ¬ starts then .err
  else
    match ls with
    | [] => .err
    | l :: ls =>
      if l ≠ b! "OK Pleased to meet you" then .err
      else
        match pinSetup settings ls with
        | none => .err
        | some [] => .err
        | some (resp :: ls) =>
          if hasPrefix resp (b! "D ") then
            match ls with
            | [] => .err
            | resp' :: _ => if resp' = b! "OK" then (if exits then .ok (pinReplace (resp.drop 2)) else .err) else .err
          else if hasPrefix resp (b! "ERR") ∧ (indexOf resp (b! "Operation cancelled")).isSome then .ok []
          else if resp = b! "OK" then (if exits then .ok (pinReplace []) else .err)
          else .err

/-- `promptPassword` (uihelpers.go:14-23): what pinentry said, or the hidden prompt of the line editor if there is no pinentry -/
def promptPassword (p : Pin) (hidden : Option Str) : Option Str :=
  match p with
  | .ok pw => some pw
  | .err => none
  | .notFound => hidden

/-! ## noreadline.go -/

/-- `utf16.Decode` -/
def utf16Decode : List UInt16 → List Nat
  | [] => []
  | a :: r =>
    if 0xD800 ≤ a.toNat ∧ a.toNat < 0xDC00 then
      match r with
      | b :: r' =>
        if 0xDC00 ≤ b.toNat ∧ b.toNat < 0xE000 then
          ((a.toNat - 0xD800) * 1024 + (b.toNat - 0xDC00) + 0x10000) :: utf16Decode r'
        else 0xFFFD :: utf16Decode (b :: r')
      | [] => [0xFFFD]
    else if 0xDC00 ≤ a.toNat ∧ a.toNat < 0xE000 then 0xFFFD :: utf16Decode r
    else a.toNat :: utf16Decode r
termination_by l => l.length

/-- the text of code units (noreadline.go:96, 107) -/
def utf16Text (l : List UInt16) : Str := encodeRunes (utf16Decode l)

/-- the outcome of `LineHidden` -/
inductive Hidden | line (s : Str) | stop | interrupt | err | panic
deriving DecidableEq, Repr

/-- the keys with a meaning (noreadline.go:87-103) -/
def specialKey (c : UInt16) : Bool := c = 8 || c = 13 || c = 10 || c = 4 || c = 3

/-- The loop of `LineHidden` (noreadline.go:77-108). `buf` is the buffer of 256 code units: a read of `n` overwrites the first `n`,
but the loop looks at all of them. Backspace cuts one byte from the builder (a panic if it is empty, `bytes.Buffer.Truncate`) and
drops the rest of the read. When the reads are used up the next one fails. -/
def hiddenLoop (buf : List UInt16) (builder : Str) : List (List UInt16) → Hidden
  | [] => .err
  | chunk :: rest =>
    let buf := chunk ++ buf.drop chunk.length
    match buf.findIdx? specialKey with
    | none => hiddenLoop buf (builder ++ utf16Text chunk) rest
    | some i =>
      let c := buf.getD i 0
      if c = 8 then (if builder = [] then .panic else hiddenLoop buf builder.dropLast rest)
      else if c = 13 ∨ c = 10 then .line (trimSpace (builder ++ utf16Text (buf.take i)))
      else if c = 4 then .stop
      else .interrupt

/-- `scanEditor.LineHidden` (noreadline.go:51-116), with the console calls succeeding -/
def hiddenLine (reads : List (List UInt16)) : Hidden := hiddenLoop (List.replicate 256 0) [] reads

/-! ## cli.go, main.go, readline.go -/

/-- the file to open (cli.go:38-51, 80-85): the one given with -f or the default, or `$BPASS` if that is the default -/
def chooseFile (dflt : Str) (flag : Option Str) (bpass : Str) : Str :=
  let file := flag.getD dflt
  if file = dflt then (if bpass ≠ [] then bpass else file) else file

/-- `shortPath` (main.go:275-292) with the separator `/`: `string(p[0])` is the character with the number of the first byte -/
def shortPath (file : Str) : Str :=
  let parts := split 47 file
  if parts.length = 1 then file
  else join 47 (parts.dropLast.map (fun p => match p with | [] => [] | c :: _ => encodeRune c.toNat) ++ [parts.getLast?.getD []])

/-- `entryCompleter` (readline.go:115-131): the names offered; nothing after an error. Searching brings the snapshot up to date. -/
def completions (v : Env) (u : Session) : Session × Res Unit (List Str) :=
  match search v.lower v.ord u.store [] with
  | (s, .panic) => ({ u with store := s }, .panic)
  | (s, .err _) => ({ u with store := s }, .ok [])
  | (s, .ok r) => ({ u with store := s }, .ok (sortStr ((v.ord' r).map Prod.snd)))

end Verif.App
