import Verif.Go.Strings
/-!
# Model of `passwd_gen.go`

The bytes `rand.Read` delivers are the argument `ent : Nat → UInt8` (byte number `i` of the entropy buffer). A failing
random source (passwd_gen.go:39-43) is not modelled. `int` arithmetic is unbounded.
-/
namespace Verif.App
open Verif

def alphabetUppercase : Str := b! "ABCDEFGHIJKLMNOPQRSTUVWXYZ"        -- passwd_gen.go:9
def alphabetLowercase : Str := b! "abcdefghijklmnopqrstuvwxyz"        -- passwd_gen.go:10
def alphabetNumbers : Str := b! "0123456789"                          -- passwd_gen.go:11
def alphabetBasicSymbols : Str := b! "!@#$%^&*"                       -- passwd_gen.go:12
def alphabetExtraSymbols : Str := b! "()_+-=<>,.{}[]\\|?/~\"\\'`"     -- passwd_gen.go:13

/-- `errPasswordImpossible` (passwd_gen.go:17). -/
inductive GenErr where
  | impossible
  deriving Repr, DecidableEq

/-- The class settings, in the order of the parameters (passwd_gen.go:20): negative = off, 0 = any, n = at least n. -/
structure Classes where
  upper : Int := 0
  lower : Int := 0
  numbers : Int := 0
  basic : Int := 0
  extra : Int := 0
  deriving Repr, DecidableEq

/-- alphabet and setting of each class (passwd_gen.go:51-65) -/
def Classes.all (c : Classes) : List (Str × Int) :=
  [(alphabetUppercase, c.upper), (alphabetLowercase, c.lower), (alphabetNumbers, c.numbers),
   (alphabetBasicSymbols, c.basic), (alphabetExtraSymbols, c.extra)]

/-- `needLen` (passwd_gen.go:21-26) -/
def Classes.needLen (c : Classes) : Int :=
  ([c.upper, c.lower, c.numbers, c.basic, c.extra].map (fun i => if i > 0 then i else 0)).sum

/-- `pairs` (passwd_gen.go:50-65) -/
def Classes.pairs (c : Classes) : List (Str × Int) := c.all.filter (fun p => p.2 ≥ 0)

/-- `alphabet[b % byte(len(alphabet))]` (passwd_gen.go:69-70, 85-86); `none` = division by zero or index out of range. -/
def pickFrom {α : Type} (l : List α) (b : UInt8) : Option α :=
  let ln := UInt8.ofNat l.length
  if ln = 0 then none else l[(b % ln).toNat]?

/-- the inner loop over `p.num` (passwd_gen.go:68-73): `n` picks from one alphabet starting at entropy offset `e`. -/
def pickN (ent : Nat → UInt8) (alphabet : Str) : Nat → Nat → Option Str
  | 0, _ => some []
  | n + 1, e =>
    match pickFrom alphabet (ent e) with
    | none => none
    | some c => (pickN ent alphabet n (e + 1)).map (c :: ·)

/-- the required picks (passwd_gen.go:67-74): the password so far and the entropy offset. -/
def required (ent : Nat → UInt8) : List (Str × Int) → Nat → Option (Str × Nat)
  | [], e => some ([], e)
  | (a, num) :: rest, e =>
    match pickN ent a num.toNat e with
    | none => none
    | some s => (required ent rest (e + num.toNat)).map (fun p => (s ++ p.1, p.2))

/-- the random picks (passwd_gen.go:80-89): two entropy bytes each. -/
def randomPicks (ent : Nat → UInt8) (pairs : List (Str × Int)) : Nat → Nat → Option Str
  | 0, _ => some []
  | n + 1, e =>
    match pickFrom pairs (ent e) with
    | none => none
    | some p =>
      match pickFrom p.1 (ent (e + 1)) with
      | none => none
      | some c => (randomPicks ent pairs n (e + 2)).map (c :: ·)

/-- `password[i], password[j] = password[j], password[i]`; `none` = index out of range. -/
def swap (l : Str) (i j : Nat) : Option Str :=
  match l[i]?, l[j]? with
  | some a, some b => some ((l.set i b).set j a)
  | _, _ => none

/-- the shuffle (passwd_gen.go:91-96) from position `i` on, `n` steps. -/
def shuffle (ent : Nat → UInt8) (length : Nat) : Nat → Nat → Nat → Str → Option Str
  | 0, _, _, l => some l
  | n + 1, i, e, l =>
    let m := UInt8.ofNat length
    if m = 0 then none
    else
      match swap l i (ent e % m).toNat with
      | none => none
      | some l => shuffle ent length n (i + 1) (e + 1) l

/-- `genPassword` (passwd_gen.go:20-99). -/
def genPassword (ent : Nat → UInt8) (length : Int) (c : Classes) : Res GenErr Str :=
  if c.needLen > length then .err .impossible
  else
    let n := (length - c.needLen).toNat
    match required ent c.pairs 0 with
    | none => .panic
    | some (req, e) =>
      if n > 0 ∧ c.pairs = [] then .err .impossible
      else
        match randomPicks ent c.pairs n e with
        | none => .panic
        | some rnd =>
          match shuffle ent length.toNat length.toNat 0 (e + 2 * n) (req ++ rnd) with
          | none => .panic
          | some pw => .ok pw

end Verif.App
