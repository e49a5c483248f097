import Verif.App.PassGen
import Verif.Go.Fields
/-!
# Model of the prompts in `uihelpers.go`

What the user does is a list: `some line` answers one prompt, `none` interrupts it (the line editor returns an error).
When the list is used up every further prompt ends in an error (end of input), so a prompt loop that would wait for ever
on an endless input returns an error on every finite one.
-/
namespace Verif.App
open Verif

abbrev Input := List (Option Str)

/-- `u.prompt` (uihelpers.go:25-32): `none` = error -/
def prompt : Input → Option Str × Input
  | [] => (none, [])
  | a :: rest => (a, rest)

/-- `getYesNo` (uihelpers.go:107-123) -/
def getYesNo : Input → Option Bool × Input
  | [] => (none, [])
  | none :: rest => (none, rest)
  | some s :: rest =>
    if s ∈ [b! "yes", b! "y", b! "YES", b! "Y"] then (some true, rest)
    else if s ∈ [b! "no", b! "n", b! "NO", b! "N"] then (some false, rest)
    else getYesNo rest

/-- `getString` (uihelpers.go:126-141) -/
def getString : Input → Option Str × Input
  | [] => (none, [])
  | none :: rest => (none, rest)
  | some s :: rest => if s = [] then getString rest else (some s, rest)

/-- `getInt` (uihelpers.go:143-166); the bounds are only printed. -/
def getInt : Input → Option Int × Input
  | [] => (none, [])
  | none :: rest => (none, rest)
  | some s :: rest =>
    if s = [] then getInt rest
    else
      match atoi s with
      | some i => (some i, rest)
      | none => getInt rest

/-- `getMenuChoice` (uihelpers.go:168-196) -/
def getMenuChoice (items : Nat) : Input → Option Int × Input
  | [] => (none, [])
  | none :: rest => (none, rest)
  | some s :: rest =>
    match atoi s with
    | some i => if i - 1 < 0 ∨ i - 1 ≥ items then getMenuChoice items rest else (some (i - 1), rest)
    | none => getMenuChoice items rest

/-- `promptMultiline` (uihelpers.go:34-66). `ctrlC`: a failing prompt was interrupted (an error), otherwise it met the end of
input (`ErrEnd`), which ends the text. `lines` are the lines so far. -/
def promptMultiline (ctrlC : Bool) : Input → List Str → Bool → Option Str × Input
  | [], lines, _ => (if ctrlC then none else some (join 10 lines), [])
  | none :: rest, lines, _ => (if ctrlC then none else some (join 10 lines), rest)
  | some line :: rest, lines, oneBlank =>
    if line = b! "." then (some (join 10 lines), rest)
    else if line = [] then
      if oneBlank then (some (join 10 lines), rest) else promptMultiline ctrlC rest lines true
    else
      let lines := if oneBlank then lines ++ [[]] else lines
      promptMultiline ctrlC rest (lines ++ [line]) false

/-! ## `getPassword` (uihelpers.go:198-313) -/

/-- local variables of the loop -/
structure PwState where
  length : Int := 32
  classes : Classes := {}
  password : Str := []
  /-- false: `genPassword` reported impossibility -/
  shown : Bool := true
  deriving Repr, DecidableEq

/-- `setSetting` (uihelpers.go:208-227) -/
def setSetting (splits : List Str) (n : Int) : Int :=
  match splits with
  | [_] => if n ≥ 0 then -1 else 0
  | _ :: s :: _ => (atoi s).getD n
  | [] => n

/-- the part of the loop that reads a choice (uihelpers.go:258-311): what the choice leads to -/
inductive Choice where
  /-- return this password -/
  | ret (pw : Str)
  /-- an error of a prompt -/
  | fail
  /-- run-time panic -/
  | crash
  /-- next round; `regen` as in the code -/
  | again (regen : Bool) (st : PwState) (rest : Input)
  deriving Repr, DecidableEq

/-- One choice. For `m` the two hidden prompts take the next two inputs (uihelpers.go:271-286). On a choice of white space only
`splits[0]` is out of range (uihelpers.go:290). -/
def choose (st : PwState) : Input → Choice
  | [] => .fail
  | none :: _ => .fail
  | some choice :: rest =>
    let splits := fields choice
    if choice = [] then .again true st rest
    else if choice = b! "y" then .ret st.password
    else if choice = b! "m" then
      match rest with
      | some initial :: some verify :: rest' =>
        if initial ≠ verify then .again true st rest' else .ret initial
      | _ => .fail
    else if choice = b! "?" then .again false st rest
    else
      match splits with
      | [] => .crash
      | s :: _ =>
        if s = b! "c" then .again false st rest
        else if s = b! "u" then
          .again true { st with classes := { st.classes with upper := setSetting splits st.classes.upper } } rest
        else if s = b! "l" then
          .again true { st with classes := { st.classes with lower := setSetting splits st.classes.lower } } rest
        else if s = b! "n" then
          .again true { st with classes := { st.classes with numbers := setSetting splits st.classes.numbers } } rest
        else if s = b! "b" then
          .again true { st with classes := { st.classes with basic := setSetting splits st.classes.basic } } rest
        else if s = b! "e" then
          .again true { st with classes := { st.classes with extra := setSetting splits st.classes.extra } } rest
        else
          match atoi choice with
          | none => .again true st rest
          | some n => .again true { st with length := n } rest

/-- The loop (uihelpers.go:244-312); `ent i` is the entropy of the `i`-th call of `genPassword`. `fuel` bounds the number of
rounds: each round consumes at least one input, so one more than the inputs is enough. Outcome: the password (or
error/panic), and the unused input is not tracked. -/
def pwLoop (ent : Nat → Nat → UInt8) : Nat → Nat → Bool → PwState → Input → Res Unit Str
  | 0, _, _, _, _ => .err ()
  | fuel + 1, i, regen, st, inp =>
    let next (st : PwState) (i : Nat) : Res Unit Str :=
      match choose st inp with
      | .ret pw => .ok pw
      | .fail => .err ()
      | .crash => .panic
      | .again regen st rest => pwLoop ent fuel i regen st rest
    if regen then
      match genPassword (ent i) st.length st.classes with
      | .panic => .panic
      | .err _ => next { st with password := [], shown := false } (i + 1)
      | .ok pw => next { st with password := pw, shown := true } (i + 1)
    else next st i

/-- `getPassword` -/
def getPassword (ent : Nat → Nat → UInt8) (inp : Input) : Res Unit Str :=
  pwLoop ent (inp.length + 1) 0 true {} inp

end Verif.App
